import Verif.Dist.Calm
/-
C78: what is still there after a crash.  A chunk that was in the library when it was last flushed or closed, and that has been neither appended to nor
transposed since, can be read with its contents by a library opened after a crash.
-/
namespace Verif.Dist
open Verif Verif.ND Verif.Tree Verif.Bytes Verif.Stream Verif.NullSup
open Verif.Cache (CRel keyGone)

variable {C : Cfg} {S : Sorter} {Z : SlabSize}

/-! ### Specification -/

/-- For every directory: the chunks that were in the library there when it was last written to disk completely (`FlushLibrary`, destruction,
    `MoveLibrary`), and which of them have not been changed since. -/
structure Ledger where
  listed : Nat → List Piece
  kept : Nat → Piece → Prop

/-- The directory is written completely. -/
def Ledger.write (G : Ledger) (d : Nat) (ps : List Piece) : Ledger := ⟨upd G.listed d ps, upd G.kept d (· ∈ ps)⟩
/-- The directory is emptied. -/
def Ledger.drop (G : Ledger) (d : Nat) : Ledger := ⟨upd G.listed d [], upd G.kept d fun _ => False⟩

/-- The effect of a call. -/
def Ledger.next (G : Ledger) (w : World) : LOp → Ledger
  | op => match op, w.cur with
    | .flush, some l => G.write l.dir l.pieces
    | .close, some l => G.write l.dir l.pieces
    | .move dir, some l => (G.drop l.dir).write dir l.pieces
    | .clear, some l => G.drop l.dir
    | .import dir true, some _ => G.drop dir
    | .append start _, some l => ⟨G.listed, upd G.kept l.dir fun p => G.kept l.dir p ∧ start ≠ p.start.set 0 (p.stop.getD 0 0)⟩
    | .swap _ _, some l => ⟨G.listed, upd G.kept l.dir fun _ => False⟩
    | _, _ => G

def Ledger.run (C : Cfg) : Ledger → World → List LOp → Ledger
  | G, _, [] => G
  | G, w, op :: ops => (G.next w op).run C (w.next C op) ops

def Ledger.init : Ledger := ⟨fun _ => [], fun _ _ => False⟩

/-- A library opened on these files in this directory returns the values of the chunk. -/
def Readable (C : Cfg) (S : Sorter) (fs : FS) (d : Nat) (p : Piece) : Prop :=
  ∀ init i, InBox p.start p.stop i → p.Plain →
    ∃ st v, MState.run C S ⟨none, fs⟩ [.open d init, .get i] = .ok (st, [.unit, .vec v]) ∧ VEq (p.val i) v

/-! ### Proof -/

/-- The index file of the directory lists the chunks. -/
def Lists (C : Cfg) (fs : FS) (d : Nat) (ps : List Piece) : Prop :=
  ∃ cs, Chunky C cs ∧ fs (d, .index) = some (indexFile C (cs.map Prod.fst)) ∧ Rep C cs ps

theorem Lists.frame {fs fs' : FS} {d : Nat} {ps : List Piece} (h : Lists C fs d ps) (hf : fs' (d, .index) = fs (d, .index)) : Lists C fs' d ps := by
  obtain ⟨cs, h1, h2, h3⟩ := h
  exact ⟨cs, h1, by rw [hf]; exact h2, h3⟩

/-- The record of a chunk is determined by what the user knows about it. -/
theorem meta_eq {cs cs' : List (Meta × Arr)} (h : Chunky C cs) (h' : Chunky C cs') {c c' : Meta × Arr} (hc : c ∈ cs) (hc' : c' ∈ cs') {p : Piece}
    (hr : RepOne C c p) (hr' : RepOne C c' p) : c.1 = c'.1 := by
  have p1 := h.placed c hc
  have p2 := h'.placed c' hc'
  have e1 : c.1.id = c'.1.id := hr.id.trans hr'.id.symm
  have e2 : c.1.path = c'.1.path := hr.file.trans hr'.file.symm
  have e3 : c.1.start = c'.1.start := hr.start.trans hr'.start.symm
  have e4 : c.1.stop = c'.1.stop := hr.stop.trans hr'.stop.symm
  have e5 : c.1.overlap = c'.1.overlap := hr.overlap.trans hr'.overlap.symm
  have e6 : c.1.shape = c'.1.shape := by
    apply ext_getD
    · rw [p1.shapeLen, p2.shapeLen]
    · intro d _
      have a1 := p1.getD_stop d
      have a2 := p2.getD_stop d
      rw [e3, e4] at a1; omega
  have e7 : c.1.offset = c'.1.offset := by rw [p1.offset, p2.offset, e3, e5]
  have e8 : c.1.ctype = c'.1.ctype := by
    have b1 := path_iff h hc
    have b2 := path_iff h' hc'
    rw [e2] at b1
    have b3 := b1.symm.trans b2
    cases hx : c.1.ctype <;> cases hy : c'.1.ctype <;> simp_all
  cases hm : c.1; cases hm' : c'.1
  rw [hm] at e1 e2 e3 e4 e5 e6 e7 e8
  rw [hm'] at e1 e2 e3 e4 e5 e6 e7 e8
  simp only at e1 e2 e3 e4 e5 e6 e7 e8
  subst e1; subst e2; subst e3; subst e4; subst e5; subst e6; subst e7; subst e8; rfl

/-- An index that lists the chunk and a file with its contents suffice to read it. -/
theorem readable_of (hC : C.Ok) (Z : SlabSize) {fs : FS} {d : Nat} {ps ps' : List Piece} (hl : Lists C fs d ps) {p : Piece} (hp : p ∈ ps) (hn : ps.length < 2 ^ 64)
    {cs : List (Meta × Arr)} (hch : Chunky C cs) (hrep : Rep C cs ps') (hp' : p ∈ ps') (hd : ∀ c ∈ cs, c.1.id = p.id → OnDisk C d fs c.1 c.2) : Readable C S fs d p := by
  intro init i hi hplain
  obtain ⟨cs0, k1, k2, k3⟩ := hl
  obtain ⟨c0, m1, m2⟩ := k3.rightMem hp
  obtain ⟨c, n1, n2⟩ := hrep.rightMem hp'
  have hme := meta_eq k1 hch m1 n1 m2 n2
  -- the only chunk that matters
  let M : Chunks := fun k => if k = c.1.id then some c else none
  have hM1 : ∀ k v, M k = some v → k = c.1.id ∧ v = c := fun k v hk => by
    by_cases e : k = c.1.id
    · simp only [M, if_pos e] at hk; cases hk; exact ⟨e, rfl⟩
    · simp only [M, if_neg e] at hk; cases hk
  have hM2 : M c.1.id = some (c.1, c.2) := by simp [M]
  have hlk : chunksOf cs c.1.id = some (c.1, c.2) := chunksOf_of_mem hch.ids n1
  have hMok : M.Ok C := by
    refine ⟨fun k m a hk => ?_, fun k m a hk => ?_, fun k m a hk => ?_, fun k m a hk => ?_, fun k m a k' m' a' hk hk' _ _ => ?_⟩
    · obtain ⟨e1, e2⟩ := hM1 _ _ hk; rw [e1, ← e2]
    · obtain ⟨e1, e2⟩ := hM1 _ _ hk
      refine hch.ok.arr k m a ?_
      rw [e1, e2]; exact hlk
    · obtain ⟨e1, e2⟩ := hM1 _ _ hk
      refine hch.ok.spec k m a ?_
      rw [e1, e2]; exact hlk
    · obtain ⟨e1, e2⟩ := hM1 _ _ hk
      refine hch.ok.null k m a ?_
      rw [e1, e2]; exact hlk
    · rw [(hM1 _ _ hk).1, (hM1 _ _ hk').1]
  -- opening
  obtain ⟨t, e1, e2⟩ := (IdxInv.empty (C := C) (S := S) (Z := Z) d).insertAll_ok hC (cs0.map Prod.fst) (fun m hm => by
    obtain ⟨c, hc, rfl⟩ := List.mem_map.1 hm
    exact (k1.placed c hc).isBox)
  obtain ⟨cc, e3, e4, e5⟩ := cinv_of_disk (C := C) (M := M) (fs := fs) (dir := d) (fun k m a hk => by
    obtain ⟨_, e⟩ := hM1 _ _ hk
    have := hd c n1 n2.id
    rw [← e] at this; exact this) init
  have hopen : Lib.open C S fs d init = .ok ⟨cc, { Index.empty C d with tree := t, heap := (Index.empty C d).heap ++ cs0.map Prod.fst }⟩ := by
    unfold Lib.open Index.open
    rw [k2]
    simp only [load_ok k1 (by rw [k3.1]; exact hn) k2, Res.ok_bind]
    rw [e1]
    simp only [Res.ok_bind]
    rw [e3]; rfl
  generalize { Index.empty C d with tree := t, heap := (Index.empty C d).heap ++ cs0.map Prod.fst } = x at e2 hopen
  have e2' : IdxInv C S Z x (cs0.map Prod.fst) := by simpa using e2
  -- reading
  obtain ⟨k, hk⟩ := List.getElem?_of_mem m1
  have hpl := k1.placed c0 m1
  have hi0 : InBox c0.1.start c0.1.stop i := by rw [m2.start, m2.stop]; exact hi
  obtain ⟨t', f1, _⟩ := e2'.getChunk_ok hC (hpl.point hi0) (i := k) (m := c0.1) (by rw [List.getElem?_map, hk]; rfl) (k1.onlyAt hk hi0)
  obtain ⟨cc', fs', s', b, g1, _, _, _, g5, _⟩ := retrieve_ok hC hMok e5 (m := c.1) (a := c.2) hM2
  have hi1 : InBox c.1.start c.1.stop i := by rw [← hme]; exact hi0
  have hplc := hch.placed c n1
  obtain ⟨v, w, q1, q2, q3⟩ := g5.2 _ (valid_local hplc hi1)
  have hil : i.length = C.dims := by rw [hi1.1, hplc.startLen]
  have hoff : vsub i c.1.offset = localInd c.1 i :=
    vsub_offset hplc (RepOne.plain hch n1 n2 hplain) hil fun d hd => by have := hi1.2.2 d (by omega); omega
  obtain ⟨u, u1, u2⟩ := n2.val i hi
  rw [q1] at u1; cases u1
  refine ⟨⟨some ⟨cc', { x with tree := t', valid := false }⟩, fs'⟩, w, ?_, u2.trans q3⟩
  simp only [MState.run, MState.step, hopen, Res.ok_bind]
  unfold Lib.get
  simp only [f1, Res.ok_bind]
  rw [hme, g1]
  simp only [Res.ok_bind]
  rw [hoff, q2]; rfl

theorem LInv.onDisk {lib : Lib} {fs : FS} {cs : List (Meta × Arr)} {s : List (Nat × Entry)} (hch : Chunky C cs) (hs : CInv C (chunksOf cs) lib.cc fs s)
    {c : Meta × Arr} (hc : c ∈ cs) (hq : Quiet C c.1.id lib.cc.cache) : OnDisk C lib.cc.dir fs c.1 c.2 := by
  have hk : chunksOf cs c.1.id = some (c.1, c.2) := chunksOf_of_mem hch.ids hc
  by_cases hm : c.1.id ∈ s.map Prod.fst
  · obtain ⟨e, he⟩ := mem_of_key hm
    obtain ⟨s', h1, h2⟩ := hq
    have hst := h2 e (crel_mem hs.rel h1 he)
    obtain ⟨m, a, h3, h4⟩ := hs.cached _ _ he
    rw [hk] at h3; cases h3
    have := h4.stat
    rw [hst] at this
    exact this.2
  · exact hs.disk _ _ _ hk hm

/-- What the invariant may require of a chunk `p` as it was when written, the chunk `p'` it has become, and the cache. -/
structure Keeps (C : Cfg) (R : Piece → Piece → Cache.Cache Nat Entry → Prop) : Prop where
  calm : ∀ {p p' c c'}, R p p' c → Calm C p'.id c c' → R p p' c'
  quiet : ∀ {p c}, Quiet C p.id c → R p p c

/-- The chunk has not changed, and has no outstanding operation. -/
def Same (C : Cfg) (p p' : Piece) (c : Cache.Cache Nat Entry) : Prop := p' = p ∧ Quiet C p.id c

theorem Same.keeps : Keeps C (Same C) := ⟨fun h h' => ⟨h.1, h.2.calm (by rw [← h.1]; exact h')⟩, fun h => ⟨rfl, h⟩⟩

/-- The invariant: what the ledger promises. -/
structure GInv (C : Cfg) (S : Sorter) (Z : SlabSize) (R : Piece → Piece → Cache.Cache Nat Entry → Prop) (st : MState) (w : World) (G : Ledger) : Prop where
  inv : WInv C S Z st w
  /-- the open library -/
  cur : ∀ l, w.cur = some l → ∀ p, G.kept l.dir p → p ∈ G.listed l.dir ∧ Lists C st.fs l.dir (G.listed l.dir) ∧ ∃ p' ∈ l.pieces,
    ∀ lib, st.lib = some lib → R p p' lib.cc.cache
  /-- closed libraries -/
  disk : ∀ d, (∀ l, w.cur = some l → l.dir ≠ d) → ∀ p, G.kept d p → w.disk d = some (G.listed d) ∧ p ∈ G.listed d

abbrev DInv (C : Cfg) (S : Sorter) (Z : SlabSize) (st : MState) (w : World) (G : Ledger) : Prop := GInv C S Z (Same C) st w G

theorem DInv.now {st : MState} {w : World} {G : Ledger} (h : DInv C S Z st w G) {l : LibSpec} (hl : w.cur = some l) {p : Piece} (hp : G.kept l.dir p) :
    p ∈ l.pieces ∧ p ∈ G.listed l.dir ∧ Lists C st.fs l.dir (G.listed l.dir) ∧ ∀ lib, st.lib = some lib → Quiet C p.id lib.cc.cache := by
  obtain ⟨h1, h2, p', h3, h4⟩ := h.cur l hl p hp
  obtain ⟨lib, _, a1, _⟩ := h.inv.opened l hl
  exact ⟨(h4 lib a1).1 ▸ h3, h1, h2, fun lib e => (h4 lib e).2⟩

variable {R : Piece → Piece → Cache.Cache Nat Entry → Prop}

theorem Saved.lists {fs : FS} {d : Nat} {cs : List (Meta × Arr)} {ps : List Piece} (h : Saved C fs d cs) (hr : Rep C cs ps) : Lists C fs d ps :=
  ⟨cs, h.chunky, h.index, hr⟩

theorem GInv.closed_readable (hC : C.Ok) {st : MState} {w : World} {G : Ledger} (h : GInv C S Z R st w G) {d : Nat} (hd : ∀ l, w.cur = some l → l.dir ≠ d) {p : Piece}
    (hp : G.kept d p) (hn : (G.listed d).length < 2 ^ 64) {fs : FS} (hf : ∀ n, fs (d, n) = st.fs (d, n)) : Readable C S fs d p := by
  obtain ⟨h1, h2⟩ := h.disk d hd p hp
  obtain ⟨cs, g1, g2, _⟩ := h.inv.disk d _ h1
  have g1 := g1.frame hf
  exact readable_of hC Z (g1.lists g2) h2 hn g1.chunky g2 h2 fun c hc _ => g1.disk _ _ _ (chunksOf_of_mem g1.chunky.ids hc)

/-- The files of a state in which the cache stands for the current chunks, with an index of the current or the previous list of chunks. -/
theorem open_readable (hC : C.Ok) (Z : SlabSize) {l : LibSpec} {lib : Lib} {fs : FS} {cs : List (Meta × Arr)} {s : List (Nat × Entry)} {ps : List Piece} (hch : Chunky C cs)
    (hs : CInv C (chunksOf cs) lib.cc fs s) (hr : Rep C cs l.pieces) (hdir : lib.cc.dir = l.dir) {p : Piece} (hp : p ∈ l.pieces) (hp' : p ∈ ps)
    (hl : Lists C fs l.dir ps) (hn : ps.length < 2 ^ 64) (hq : Quiet C p.id lib.cc.cache) : Readable C S fs l.dir p := by
  refine readable_of hC Z hl hp' hn hch hr hp fun c hc hid => ?_
  rw [← hdir]
  exact LInv.onDisk hch hs hc (by rw [hid]; exact hq)

theorem DInv.readable (hC : C.Ok) {st : MState} {w : World} {G : Ledger} (h : DInv C S Z st w G) {d : Nat} {p : Piece} (hp : G.kept d p)
    (hn : (G.listed d).length < 2 ^ 64) : Readable C S st.fs d p := by
  by_cases hd : ∃ l, w.cur = some l ∧ l.dir = d
  · obtain ⟨l, h1, rfl⟩ := hd
    obtain ⟨lib, cs, a1, a2, a3, _, a5, _⟩ := h.inv.opened l h1
    obtain ⟨g1, g2, g3, g4⟩ := DInv.now h h1 hp
    obtain ⟨s, hs⟩ := a2.cache
    exact open_readable hC Z a2.chunky hs a3 (a2.dir.trans a5) g1 g2 g3 hn (g4 lib a1)
  · exact h.closed_readable hC (fun l e e' => hd ⟨l, e, e'⟩) hp hn fun _ => rfl

/-- Calls on the open library that leave its index on disk. -/
theorem GInv.local0 {st st' : MState} {w w' : World} {G G' : Ledger} (h : GInv C S Z R st w G) (h' : WInv C S Z st' w') {l l' : LibSpec} {lib lib' : Lib}
    (hw : w.cur = some l) (hw' : w'.cur = some l') (hdir : l'.dir = l.dir) (hdisk : w'.disk = w.disk) (hG : G'.listed = G.listed)
    (hk : ∀ d p, G'.kept d p → G.kept d p) (hl : st.lib = some lib) (hl' : st'.lib = some lib') (hf : st'.fs (l.dir, .index) = st.fs (l.dir, .index))
    (hin : ∀ p p', p' ∈ l.pieces → G'.kept l.dir p → R p p' lib.cc.cache → ∃ p'' ∈ l'.pieces, R p p'' lib'.cc.cache) : GInv C S Z R st' w' G' := by
  refine ⟨h', fun l₂ e p hp => ?_, fun d hd p hp => ?_⟩
  · rw [hw'] at e; cases e
    rw [hdir] at hp ⊢
    obtain ⟨g2, g3, p', g1, g4⟩ := h.cur l hw p (hk _ _ hp)
    obtain ⟨p'', k1, k2⟩ := hin p p' g1 hp (g4 lib hl)
    refine ⟨by rw [hG]; exact g2, by rw [hG]; exact g3.frame hf, p'', k1, fun lib₂ e₂ => ?_⟩
    rw [hl'] at e₂; cases e₂
    exact k2
  · rw [hdisk, hG]
    exact h.disk d (fun l₂ e => by rw [hw] at e; cases e; have := hd l' hw'; rw [hdir] at this; exact this) p (hk _ _ hp)

theorem GInv.local_ (hR : Keeps C R) {st st' : MState} {w w' : World} {G G' : Ledger} (h : GInv C S Z R st w G) (h' : WInv C S Z st' w') {l l' : LibSpec} {lib lib' : Lib}
    (hw : w.cur = some l) (hw' : w'.cur = some l') (hdir : l'.dir = l.dir) (hdisk : w'.disk = w.disk) (hG : G'.listed = G.listed)
    (hk : ∀ d p, G'.kept d p → G.kept d p) (hl : st.lib = some lib) (hl' : st'.lib = some lib') (hf : st'.fs (l.dir, .index) = st.fs (l.dir, .index))
    (hin : ∀ p p', p' ∈ l.pieces → G'.kept l.dir p → p' ∈ l'.pieces ∧ Calm C p'.id lib.cc.cache lib'.cc.cache) : GInv C S Z R st' w' G' :=
  h.local0 h' hw hw' hdir hdisk hG hk hl hl' hf fun p p' h1 h2 h3 => ⟨p', (hin p p' h1 h2).1, hR.calm h3 (hin p p' h1 h2).2⟩

/-- The library in `d` has been written completely. -/
theorem quiet_of_empty {k : Nat} {c : Cache.Cache Nat Entry} (h : CRel (max 1 C.size) c []) : Quiet C k c := ⟨[], h, fun e he => by cases he⟩

theorem upd_self {α : Type} (f : Nat → α) (d : Nat) (x : α) : upd f d x d = x := by simp [upd]
theorem upd_ne {α : Type} (f : Nat → α) {d d' : Nat} (x : α) (h : d' ≠ d) : upd f d x d' = f d' := by simp [upd, h]

theorem appOk_of (hC : C.Ok) {lib : Lib} {fs : FS} {cs : List (Meta × Arr)} {l : LibSpec} {start : List Nat} {s : Arr} {k : Nat} {p : Piece} {c : Meta × Arr}
    (a2 : LInv C S Z lib fs cs) (a3 : Rep C cs l.pieces) (hr : CanAppend C l k p start s) (c1 : cs[k]? = some c) (c2 : RepOne C c p) :
    AppOk C cs k c.1 c.2 start s := by
  have _ := hC
  have hmem := List.mem_of_getElem? c1
  have hpl := a2.chunky.placed c hmem
  have hov : c.1.overlap = 0 := by rw [c2.overlap]; exact hr.overlap
  have hpstart := c2.start
  have hpstop := c2.stop
  have hshape : c.2.shape = subVec p.stop p.start := by
    rw [hpl.arr, padOf_zero hov, ← hpstart, ← hpstop]
    have h5 := hpl.startLen
    have h6 := hpl.shapeLen
    have h7 := hpl.stopLen
    apply ext_getD
    · rw [length_subVec (by omega)]; simp; omega
    · intro d hd
      rw [getD_subVec (by omega), hpl.getD_stop d]
      simp
  have hext : Extends C c.2 s := ⟨by rw [hshape]; exact hr.tail, by
    show Fit C (c.2.shape.set 0 (c.2.shape.getD 0 0 + s.shape.getD 0 0)); rw [hshape]; exact hr.fit⟩
  refine ⟨c1, (path_iff a2.chunky hmem).1 (by rw [c2.file]; exact hr.file), hov, by rw [hpstart, hpstop]; exact hr.start, hr.arr, hext, by rw [hpstop]; exact hr.lt,
      fun j c' hj hjk => ?_⟩
  obtain ⟨p', q1, q2⟩ := a3.left hj
  rw [q2.start, q2.stop, hpstart, hpstop]
  exact hr.disj j p' q1 hjk

theorem GInv.step_other (hC : C.Ok) (hR : Keeps C R) {st st' : MState} {w : World} {G : Ledger} (h : GInv C S Z R st w G) (op : LOp) (hl : Legal C w op)
    (hna : ∀ start s, op ≠ .append start s) {r : Out} (e1 : st.step C S op = .ok (st', r)) (e3 : WInv C S Z st' (w.next C op)) :
    GInv C S Z R st' (w.next C op) (G.next w op) := by
  cases op with
  | «open» dir init =>
    obtain ⟨hc, _⟩ := hl
    have hst := h.inv.closed hc
    simp only [MState.step] at e1
    obtain ⟨lib, g1, e1⟩ := Res.bind_eq_ok.1 e1
    cases e1
    have hG : G.next w (.open dir init) = G := by unfold Ledger.next; rw [hc]
    have hw : w.next C (.open dir init) = { w with cur := some ⟨dir, 0, (w.disk dir).getD []⟩, disk := upd w.disk dir none } := by
      unfold World.next; rw [hc]
    rw [hG]
    refine ⟨e3, fun l e p hp => ?_, fun d hd p hp => ?_⟩
    · rw [hw] at e; cases e
      have hp : G.kept dir p := hp
      obtain ⟨k1, k2⟩ := h.disk dir (fun l e => by rw [hc] at e; cases e) p hp
      obtain ⟨cs, q1, q2, _⟩ := h.inv.disk dir _ k1
      refine ⟨k2, q1.lists q2, p, by show p ∈ (w.disk dir).getD []; rw [k1]; exact k2, fun lib' e => ?_⟩
      cases e
      refine hR.quiet ?_
      unfold Lib.open at g1
      obtain ⟨_, _, g1⟩ := Res.bind_eq_ok.1 g1
      obtain ⟨_, g2, g1⟩ := Res.bind_eq_ok.1 g1
      cases g1
      obtain ⟨cc, z1, _, z3⟩ := cinv_of_disk (C := C) (M := fun _ => none) (fs := st.fs) (dir := dir) (fun k m a e => by cases e) init
      rw [g2] at z1; cases z1
      exact quiet_of_empty z3.rel
    · rw [hw] at hd ⊢
      have hne : d ≠ dir := fun e => hd _ rfl e.symm
      show upd w.disk dir none d = _ ∧ _
      rw [upd_ne _ _ hne]
      exact h.disk d (fun l e => by rw [hc] at e; cases e) p hp
  | query q =>
    obtain ⟨l, h1, _⟩ := hl
    obtain ⟨lib, cs, a1, _⟩ := h.inv.opened l h1
    have hG : G.next w (.query q) = G := by unfold Ledger.next; rw [h1]
    have hw : w.next C (.query q) = w := by unfold World.next; rw [h1]
    rw [hw] at e3 ⊢
    rw [hG]
    have hfs : st'.fs = st.fs ∧ ∃ lib', st'.lib = some lib' ∧ lib'.cc = lib.cc := by
      cases q <;>
      · simp only [MState.step, a1] at e1
        obtain ⟨_, _, e1⟩ := Res.bind_eq_ok.1 e1
        cases e1; exact ⟨rfl, _, rfl, rfl⟩
    obtain ⟨k1, lib', k2, k3⟩ := hfs
    exact h.local_ hR e3 h1 h1 rfl rfl rfl (fun _ _ hp => hp) a1 k2 (by rw [k1]) fun _ p hp _ => ⟨hp, by rw [k3]; exact .refl _⟩
  | loop lo hi =>
    obtain ⟨l, h1, _⟩ := hl
    obtain ⟨lib, cs, a1, _⟩ := h.inv.opened l h1
    have hG : G.next w (.loop lo hi) = G := by unfold Ledger.next; rw [h1]
    have hw : w.next C (.loop lo hi) = w := by unfold World.next; rw [h1]
    rw [hw] at e3 ⊢
    rw [hG]
    simp only [MState.step, a1] at e1
    obtain ⟨_, g, e1⟩ := Res.bind_eq_ok.1 e1; cases e1
    exact h.local_ hR e3 h1 h1 rfl rfl rfl (fun _ _ hp => hp) a1 rfl ((libLoop_grows g).2 _) fun _ p hp _ => ⟨hp, libLoop_calm g _⟩
  | loopAll =>
    obtain ⟨l, _, h1, _⟩ := hl
    obtain ⟨lib, cs, a1, _⟩ := h.inv.opened l h1
    have hG : G.next w .loopAll = G := by unfold Ledger.next; rw [h1]
    have hw : w.next C .loopAll = w := by unfold World.next; rw [h1]
    rw [hw] at e3 ⊢
    rw [hG]
    simp only [MState.step, a1] at e1
    obtain ⟨_, g, e1⟩ := Res.bind_eq_ok.1 e1; cases e1
    unfold Lib.indexLoopAll at g
    obtain ⟨_, _, g⟩ := Res.bind_eq_ok.1 g
    exact h.local_ hR e3 h1 h1 rfl rfl rfl (fun _ _ hp => hp) a1 rfl ((libLoop_grows g).2 _) fun _ p hp _ => ⟨hp, libLoop_calm (lib := { lib with idx := _ }) g _⟩
  | get i =>
    obtain ⟨l, _, h1, _⟩ := hl
    obtain ⟨lib, cs, a1, _⟩ := h.inv.opened l h1
    have hG : G.next w (.get i) = G := by unfold Ledger.next; rw [h1]
    have hw : w.next C (.get i) = w := by unfold World.next; rw [h1]
    rw [hw] at e3 ⊢
    rw [hG]
    simp only [MState.step, a1] at e1
    obtain ⟨_, g, e1⟩ := Res.bind_eq_ok.1 e1; cases e1
    exact h.local_ hR e3 h1 h1 rfl rfl rfl (fun _ _ hp => hp) a1 rfl ((libGet_grows g).2 _) fun _ p hp _ => ⟨hp, libGet_calm g _⟩
  | fill P s hd buf lo hi out =>
    obtain ⟨l, h1, _⟩ := hl
    obtain ⟨lib, cs, a1, _⟩ := h.inv.opened l h1
    have hG : G.next w (.fill P s hd buf lo hi out) = G := by unfold Ledger.next; rw [h1]
    have hw : w.next C (.fill P s hd buf lo hi out) = w := by unfold World.next; rw [h1]
    rw [hw] at e3 ⊢
    rw [hG]
    simp only [MState.step, a1] at e1
    obtain ⟨_, g, e1⟩ := Res.bind_eq_ok.1 e1; cases e1
    exact h.local_ hR e3 h1 h1 rfl rfl rfl (fun _ _ hp => hp) a1 rfl ((libFill_grows g).2 _) fun _ p hp _ => ⟨hp, libFill_calm g _⟩
  | register uuid a start stop o opt =>
    obtain ⟨l, h1, hr⟩ := hl
    obtain ⟨lib, cs, a1, _, _, a4, _⟩ := h.inv.opened l h1
    have hG : G.next w (.register uuid a start stop o opt) = G := by unfold Ledger.next; rw [h1]
    rw [hG]
    simp only [MState.step, a1] at e1
    obtain ⟨_, g, e1⟩ := Res.bind_eq_ok.1 e1; cases e1
    refine h.local_ hR e3 h1 (l' := ⟨l.dir, l.next + 1, l.pieces ++ [newPiece C l.next uuid a start stop o opt]⟩) (by unfold World.next; rw [h1]) rfl
      (by unfold World.next; rw [h1]) rfl (fun _ _ hp => hp) a1 rfl ((libRegister_grows g).2 _)
      fun _ p hp _ => ⟨List.mem_append_left _ hp, libRegister_calm g (by rw [a4]; exact hr.id p hp)⟩
  | append start s => exact absurd rfl (hna start s)
  | swap x y =>
    obtain ⟨l, h1, _⟩ := hl
    obtain ⟨lib, cs, a1, _⟩ := h.inv.opened l h1
    have hG : G.next w (.swap x y) = ⟨G.listed, upd G.kept l.dir fun _ => False⟩ := by unfold Ledger.next; rw [h1]
    rw [hG]
    simp only [MState.step, a1] at e1
    obtain ⟨_, g, e1⟩ := Res.bind_eq_ok.1 e1; cases e1
    refine h.local_ hR e3 h1 (l' := { l with pieces := l.pieces.map fun p => p.swap x y }) (by unfold World.next; rw [h1]) rfl (by unfold World.next; rw [h1]) rfl
      (fun d p hp => ?_) a1 rfl ((libSwap_grows g).2 _) fun p _ hp hk => ?_
    · have hp : upd G.kept l.dir _ d p := hp
      by_cases hd : d = l.dir
      · subst hd; rw [upd_self] at hp; exact hp.elim
      · rw [upd_ne _ _ hd] at hp; exact hp
    · have hk : upd G.kept l.dir _ l.dir p := hk
      rw [upd_self] at hk; exact hk.elim
  | flush =>
    obtain ⟨l, h1⟩ := hl
    obtain ⟨lib, cs, a1, a2, a3, _, a5, _⟩ := h.inv.opened l h1
    have hG : G.next w .flush = G.write l.dir l.pieces := by unfold Ledger.next; rw [h1]
    have hw : w.next C .flush = w := by unfold World.next; rw [h1]
    rw [hw] at e3 ⊢
    rw [hG]
    obtain ⟨lib', fs', g1, _, _, g2, _⟩ := flushLib_ok hC a2
    have hq : ∀ k, Quiet C k lib'.cc.cache := fun k => by
      unfold Lib.flush at g1
      obtain ⟨fs1, f1, g1⟩ := Res.bind_eq_ok.1 g1
      obtain ⟨q, f2, g1⟩ := Res.bind_eq_ok.1 g1
      cases g1
      rw [index_flush_ok a2.idx] at f1; cases f1
      obtain ⟨s, hs⟩ := (a2.frameIndex (fs' := st.fs.set (lib.idx.dir, .index) (some (indexFile C (cs.map Prod.fst)))) (fun n => set_index_chunk _ _ _ _ _)).cache
      obtain ⟨cc', fs'', z1, _, z3, _⟩ := flush_ok hC a2.chunky.ok hs
      rw [f2] at z1; cases z1
      exact quiet_of_empty z3.rel
    simp only [MState.step, a1, g1, Res.ok_bind] at e1
    cases e1
    refine ⟨e3, fun l₂ e p hp => ?_, fun d hd p hp => ?_⟩
    · rw [h1] at e; cases e
      have hp : upd G.kept l.dir _ l.dir p := hp
      rw [upd_self] at hp
      have hL : (G.write l.dir l.pieces).listed l.dir = l.pieces := upd_self _ _ _
      refine ⟨by rw [hL]; exact hp, by rw [hL, ← a5]; exact g2.lists a3, p, hp, fun lib₂ e => ?_⟩
      cases e; exact hR.quiet (hq _)
    · have hne : d ≠ l.dir := fun e => hd l h1 e.symm
      have hp : upd G.kept l.dir _ d p := hp
      rw [upd_ne _ _ hne] at hp
      have hL : (G.write l.dir l.pieces).listed d = G.listed d := upd_ne _ _ hne
      rw [hL]
      exact h.disk d hd p hp
  | close =>
    obtain ⟨l, h1⟩ := hl
    have hG : G.next w .close = G.write l.dir l.pieces := by unfold Ledger.next; rw [h1]
    have hw : w.next C .close = { w with cur := none, disk := upd w.disk l.dir (some l.pieces) } := by unfold World.next; rw [h1]
    rw [hw] at e3 ⊢
    rw [hG]
    refine ⟨e3, fun l₂ e => (by cases e), fun d _ p hp => ?_⟩
    have hp : upd G.kept l.dir _ d p := hp
    show upd w.disk l.dir (some l.pieces) d = some (upd G.listed l.dir l.pieces d) ∧ p ∈ upd G.listed l.dir l.pieces d
    by_cases hd : d = l.dir
    · subst hd; rw [upd_self] at hp; rw [upd_self, upd_self]; exact ⟨rfl, hp⟩
    · rw [upd_ne _ _ hd] at hp; rw [upd_ne _ _ hd, upd_ne _ _ hd]
      exact h.disk d (fun l₂ e => by rw [h1] at e; cases e; exact fun e => hd e.symm) p hp
  | move dir =>
    obtain ⟨l, h1, hd, hdn⟩ := hl
    obtain ⟨lib, cs, a1, a2, a3, _, a5, _⟩ := h.inv.opened l h1
    have hG : G.next w (.move dir) = (G.drop l.dir).write dir l.pieces := by unfold Ledger.next; rw [h1]
    obtain ⟨lib', fs', g1, _, _, _, _, _, g2, _⟩ := moveLib_ok hC a2 (dir := dir) (by rw [a5]; exact hd)
    have hq : ∀ k, Quiet C k lib'.cc.cache := fun k => by
      unfold Lib.move at g1
      obtain ⟨q, f1, g1⟩ := Res.bind_eq_ok.1 g1
      obtain ⟨_, _, g1⟩ := Res.bind_eq_ok.1 g1
      cases g1
      unfold moveCache at f1
      obtain ⟨q1, f3, f2⟩ := Res.bind_eq_ok.1 f1
      cases f2
      obtain ⟨s, hs⟩ := a2.cache
      obtain ⟨cc', fs'', z1, _, z3, _⟩ := flush_ok hC a2.chunky.ok hs
      rw [f3] at z1; cases z1
      exact quiet_of_empty z3.rel
    simp only [MState.step, a1, g1, Res.ok_bind] at e1
    cases e1
    rw [hG]
    refine ⟨e3, fun l₂ e p hp => ?_, fun d hdd p hp => ?_⟩
    · unfold World.next at e; rw [h1] at e; cases e
      have hp : upd (upd G.kept l.dir fun _ => False) dir (· ∈ l.pieces) dir p := hp
      rw [upd_self] at hp
      have hL : ((G.drop l.dir).write dir l.pieces).listed dir = l.pieces := upd_self _ _ _
      refine ⟨by rw [hL]; exact hp, by rw [hL]; exact g2.lists a3, p, hp, fun lib₂ e => ?_⟩
      cases e; exact hR.quiet (hq _)
    · have hcur : (w.next C (.move dir)).cur = some { l with dir := dir } := by unfold World.next; rw [h1]
      have hdsk : (w.next C (.move dir)).disk = w.disk := by unfold World.next; rw [h1]
      have hne : d ≠ dir := fun e => hdd _ hcur e.symm
      have hp : upd (upd G.kept l.dir fun _ => False) dir (· ∈ l.pieces) d p := hp
      rw [upd_ne _ _ hne] at hp
      have hne2 : d ≠ l.dir := fun e => by subst e; rw [upd_self] at hp; exact hp
      rw [upd_ne _ _ hne2] at hp
      have hL : ((G.drop l.dir).write dir l.pieces).listed d = G.listed d := (upd_ne _ _ hne).trans (upd_ne _ _ hne2)
      rw [hL, hdsk]
      exact h.disk d (fun l₂ e => by rw [h1] at e; cases e; exact fun e => hne2 e.symm) p hp
  | clear =>
    obtain ⟨l, h1⟩ := hl
    have hG : G.next w .clear = G.drop l.dir := by unfold Ledger.next; rw [h1]
    rw [hG]
    have hcur : (w.next C .clear).cur = some { l with pieces := [] } := by unfold World.next; rw [h1]
    have hdsk : (w.next C .clear).disk = w.disk := by unfold World.next; rw [h1]
    refine ⟨e3, fun l₂ e p hp => ?_, fun d hdd p hp => ?_⟩
    · rw [hcur] at e; cases e
      have hp : upd G.kept l.dir (fun _ => False) l.dir p := hp
      rw [upd_self] at hp; exact hp.elim
    · have hne : d ≠ l.dir := fun e => hdd _ hcur e.symm
      have hp : upd G.kept l.dir (fun _ => False) d p := hp
      rw [upd_ne _ _ hne] at hp
      have hL : (G.drop l.dir).listed d = G.listed d := upd_ne _ _ hne
      rw [hL, hdsk]
      exact h.disk d (fun l₂ e => by rw [h1] at e; cases e; exact fun e => hne e.symm) p hp
  | «import» dir mv =>
    obtain ⟨l, ps, h1, hi⟩ := hl
    obtain ⟨lib, cs, a1, a2, _, _, a5, _⟩ := h.inv.opened l h1
    simp only [MState.step, a1] at e1
    obtain ⟨q, g, e1⟩ := Res.bind_eq_ok.1 e1; cases e1
    obtain ⟨k1, _⟩ := import_grows g (d := l.dir) (by rw [a2.dir, a5]) (fun e => hi.ne e.symm)
    have hcc : q.1.cc = lib.cc := by
      unfold Lib.import at g
      obtain ⟨_, _, g⟩ := Res.bind_eq_ok.1 g
      cases g; rfl
    have hkl : ∀ d p, (G.next w (.import dir mv)).kept d p → G.kept d p ∧ (mv = true → d ≠ dir) := fun d p hp => by
      unfold Ledger.next at hp; rw [h1] at hp
      cases mv
      · exact ⟨hp, fun e => by cases e⟩
      · have hp : upd G.kept dir (fun _ => False) d p := hp
        have hne : d ≠ dir := fun e => by subst e; rw [upd_self] at hp; exact hp
        rw [upd_ne _ _ hne] at hp
        exact ⟨hp, fun _ => hne⟩
    have hll : ∀ d, (mv = true → d ≠ dir) → (G.next w (.import dir mv)).listed d = G.listed d := fun d hd => by
      unfold Ledger.next; rw [h1]
      cases mv
      · rfl
      · exact upd_ne _ _ (hd rfl)
    have hcur : (w.next C (.import dir mv)).cur = some ⟨l.dir, l.next + ((w.disk dir).getD []).length, l.pieces ++ renumbered l.next ((w.disk dir).getD [])⟩ := by
      unfold World.next; rw [h1]
    refine ⟨e3, fun l₂ e p hp => ?_, fun d hdd p hp => ?_⟩
    · rw [hcur] at e; cases e
      obtain ⟨hp1, hp2⟩ := hkl _ _ hp
      obtain ⟨z2, z3, p', z1, z4⟩ := h.cur l h1 p hp1
      have hL := hll l.dir hp2
      refine ⟨by rw [hL]; exact z2, by rw [hL]; exact z3.frame k1, p', List.mem_append_left _ z1, fun lib₂ e => ?_⟩
      cases e
      rw [hcc]; exact z4 lib a1
    · obtain ⟨hp1, hp2⟩ := hkl _ _ hp
      have hne : d ≠ l.dir := fun e => hdd _ hcur e.symm
      rw [hll d hp2]
      obtain ⟨z1, z2⟩ := h.disk d (fun l₂ e => by rw [h1] at e; cases e; exact fun e => hne e.symm) p hp1
      refine ⟨?_, z2⟩
      unfold World.next; rw [h1]
      show (if mv = true then upd w.disk dir none else w.disk) d = _
      split
      · rename_i e
        rw [upd_ne _ _ (hp2 e)]; exact z1
      · exact z1

/-- The same identifier is the same chunk. -/
theorem same_id {lib : Lib} {fs : FS} {cs : List (Meta × Arr)} {l : LibSpec} {start : List Nat} {s : Arr} {k : Nat} {p₀ p : Piece} {c : Meta × Arr}
    (a2 : LInv C S Z lib fs cs) (a3 : Rep C cs l.pieces) (hr : CanAppend C l k p₀ start s) (c1 : cs[k]? = some c) (c2 : RepOne C c p₀) (hp : p ∈ l.pieces)
    (hid : p.id = c.1.id) : start = p.start.set 0 (p.stop.getD 0 0) := by
  obtain ⟨j, hj⟩ := List.getElem?_of_mem hp
  obtain ⟨c', d1, d2⟩ := a3.right hj
  have h7 : c'.1.id = c.1.id := d2.id.trans hid
  have h8 : chunksOf cs c.1.id = some c := chunksOf_of_mem a2.chunky.ids (List.mem_of_getElem? c1)
  have h9 : chunksOf cs c'.1.id = some c' := chunksOf_of_mem a2.chunky.ids (List.mem_of_getElem? d1)
  rw [h7, h8] at h9; cases h9
  rw [hr.start, ← c2.start, ← c2.stop, ← d2.start, ← d2.stop]

theorem DInv.step (hC : C.Ok) {st : MState} {w : World} {G : Ledger} (h : DInv C S Z st w G) (op : LOp) (hl : Legal C w op) :
    ∃ st' r, st.step C S op = .ok (st', r) ∧ DInv C S Z st' (w.next C op) (G.next w op) := by
  obtain ⟨st', r, e1, _, e3⟩ := stepW_ok hC h.inv op hl
  refine ⟨st', r, e1, ?_⟩
  by_cases hna : ∀ start s, op ≠ .append start s
  · exact GInv.step_other hC Same.keeps h op hl hna e1 e3
  · simp only [ne_eq, not_forall, not_not] at hna
    obtain ⟨start, s, rfl⟩ := hna
    obtain ⟨l, k, p₀, h1, hr⟩ := hl
    obtain ⟨lib, cs, a1, a2, a3, _⟩ := h.inv.opened l h1
    have hG : G.next w (.append start s) = ⟨G.listed, upd G.kept l.dir fun p => G.kept l.dir p ∧ start ≠ p.start.set 0 (p.stop.getD 0 0)⟩ := by
      unfold Ledger.next; rw [h1]
    rw [hG]
    simp only [MState.step, a1] at e1
    obtain ⟨_, g, e1⟩ := Res.bind_eq_ok.1 e1; cases e1
    refine GInv.local0 h e3 h1 (l' := { l with pieces := l.pieces.map fun p => if start = p.start.set 0 (p.stop.getD 0 0) then p.extend C s else p })
      (by unfold World.next; rw [h1]) rfl (by unfold World.next; rw [h1]) rfl (fun d p hp => ?_) a1 rfl ((libAppend_grows g).2 _) fun p p' hp hk hs => ?_
    · have hp : upd G.kept l.dir _ d p := hp
      by_cases hd : d = l.dir
      · subst hd; rw [upd_self] at hp; exact hp.1
      · rw [upd_ne _ _ hd] at hp; exact hp
    · have hk : upd G.kept l.dir _ l.dir p := hk
      rw [upd_self] at hk
      obtain ⟨rfl, hq⟩ := hs
      refine ⟨p', List.mem_map.2 ⟨p', hp, if_neg hk.2⟩, rfl, hq.calm ?_⟩
      obtain ⟨c, c1, c2⟩ := a3.right hr.at_
      refine libAppend_calm hC a2 (appOk_of hC a2 a3 hr c1 c2) g fun hid => hk.2 ?_
      exact same_id a2 a3 hr c1 c2 hp hid

theorem GInv.init {fs : FS} (hfs : ∀ d, fs (d, .index) = none) : GInv C S Z R ⟨none, fs⟩ (World.init fs) Ledger.init :=
  ⟨WInv.init hfs, fun l e => (by cases e), fun d _ p hp => hp.elim⟩

theorem DInv.run (hC : C.Ok) : ∀ (ops : List LOp) {st : MState} {w : World} {G : Ledger}, DInv C S Z st w G → AllLegal C w ops →
    ∃ st' rs, st.run C S ops = .ok (st', rs) ∧ DInv C S Z st' (w.run C ops) (G.run C w ops)
  | [], st, _, _, h, _ => ⟨st, [], rfl, h⟩
  | op :: ops, st, w, G, h, hl => by
      obtain ⟨st1, r, e1, e3⟩ := h.step hC op hl.1
      obtain ⟨st2, rs, g1, g3⟩ := DInv.run hC ops e3 hl.2
      exact ⟨st2, r :: rs, by simp only [MState.run, e1, g1, Res.ok_bind], g3⟩

/-- Part of `FlushCache`. -/
theorem flush_prefix (hC : C.Ok) {M : Chunks} (hM : M.Ok C) : ∀ (ks : List Nat) {cc : CC} {fs : FS} {s : List (Nat × Entry)}, CInv C M cc fs s → ks.Nodup →
    (∀ k ∈ ks, k ∈ s.map Prod.fst) → ∃ cc' fs' s', runLoop (flushOne C) ks (cc, fs) = .ok (cc', fs') ∧ cc'.dir = cc.dir ∧ CInv C M cc' fs' s' ∧ SameBut cc.dir M fs fs'
  | [], cc, fs, s, h, _, _ => ⟨cc, fs, s, rfl, rfl, h, .refl _⟩
  | k :: ks, cc, fs, s, h, hn, hsub => by
      obtain ⟨e, hmem⟩ := mem_of_key (hsub k (List.mem_cons_self ..))
      obtain ⟨r, h1, h2, h3⟩ := h.rel.evict hmem
      obtain ⟨m, a, h4, h5⟩ := h.cached _ _ hmem
      obtain ⟨fs1, h6, h7, h8⟩ := descope_ok hC hM h4 h5
      have hinv : CInv C M { cc with cache := r.1 } fs1 (keyGone k s) :=
        h.drop hM h4 rfl h3 (fun p hp => keyGone_sub hp) (fun p hp hne => mem_keyGone' hp hne) h7 h8
      rw [List.nodup_cons] at hn
      obtain ⟨cc', fs', s', g1, g2, g3, g4⟩ := flush_prefix hC hM ks hinv hn.2 fun j hj =>
        keyGone_key.2 ⟨hsub j (List.mem_cons_of_mem _ hj), fun e => hn.1 (e ▸ hj)⟩
      refine ⟨cc', fs', s', ?_, g2, g3, (sameBut_of h4 h8).trans g4⟩
      rw [runLoop]
      unfold flushOne
      simp only [h1, h2, h6, Res.ok_bind]
      exact g1

/-- Some steps of `FlushCache`: the chunks without outstanding operations are still readable. -/
theorem flush_some (hC : C.Ok) {lib : Lib} {fs : FS} {cs : List (Meta × Arr)} (h : LInv C S Z lib fs cs) (n : Nat) :
    ∃ cc' fs' s', runLoop (flushOne C) ((Cache.containedElements lib.cc.cache).take n) (lib.cc, fs) = .ok (cc', fs') ∧ cc'.dir = lib.cc.dir ∧
      CInv C (chunksOf cs) cc' fs' s' ∧ SameBut lib.cc.dir (chunksOf cs) fs fs' ∧ ∀ k, Calm C k lib.cc.cache cc'.cache := by
  obtain ⟨s, hs⟩ := h.cache
  have hperm := hs.rel.contained
  obtain ⟨cc', fs', s', g1, g2, g3, g4⟩ := flush_prefix hC h.chunky.ok ((Cache.containedElements lib.cc.cache).take n) hs
    ((hperm.nodup_iff.2 hs.rel.nodup).sublist (List.take_sublist _ _)) fun k hk => hperm.mem_iff.1 (List.mem_of_mem_take hk)
  exact ⟨cc', fs', s', g1, g2, g3, g4, fun k => flushLoop_calm g1 k⟩

end Verif.Dist
