import Verif.Dist.Durable
/-
Chunks that have been appended to since they were written completely: what they contained then is still on disk.  For C78.
-/
namespace Verif.Dist
open Verif Verif.ND Verif.Tree Verif.Bytes Verif.Stream Verif.NullSup
open Verif.Cache (CRel keyGone)

variable {C : Cfg} {S : Sorter} {Z : SlabSize}

/-- The chunk `p'` is `p` with slices appended. -/
structure Extended (p p' : Piece) : Prop where
  id : p'.id = p.id
  file : p'.file = p.file
  start : p'.start = p.start
  overlap : p'.overlap = p.overlap
  stop : ∃ n, p'.stop = p.stop.set 0 (p.stop.getD 0 0 + n)
  val : ∀ i, InBox p.start p.stop i → p'.val i = p.val i

/-- The only operation outstanding for chunk `k` is appending at most `n` rows. -/
def Slack (C : Cfg) (k n : Nat) (c : Cache.Cache Nat Entry) : Prop :=
  ∃ s, CRel (max 1 C.size) c s ∧ ∀ e, (k, e) ∈ s → e.stat = .nothing ∨ (e.stat = .append 0 ∧ e.data.shape.getD 0 0 ≤ n)

def Longer (C : Cfg) (p p' : Piece) (c : Cache.Cache Nat Entry) : Prop := Extended p p' ∧ Slack C p.id (p'.stop.getD 0 0 - p.stop.getD 0 0) c

theorem Extended.refl (p : Piece) : Extended p p := ⟨rfl, rfl, rfl, rfl, ⟨0, by
  cases h : p.stop <;> simp⟩, fun _ _ => rfl⟩

theorem Slack.calm {k n : Nat} {c c' : Cache.Cache Nat Entry} (h : Slack C k n c) (h' : Calm C k c c') : Slack C k n c' := by
  obtain ⟨s, h1, h2⟩ := h
  obtain ⟨s', h3, h4⟩ := h' s h1
  refine ⟨s', h3, fun e he => ?_⟩
  rcases h4 e he with g | g
  · exact h2 e g
  · exact .inl g

theorem Longer.keeps : Keeps C (Longer C) :=
  ⟨fun h h' => ⟨h.1, h.2.calm (by rw [← h.1.id]; exact h')⟩, fun ⟨s, h1, h2⟩ => ⟨.refl _, s, h1, fun e he => .inl (h2 e he)⟩⟩

/-! ### Appending -/

/-- A new entry for chunk `m.id`. -/
theorem insertInto_slack (hC : C.Ok) {cc : CC} {fs : FS} {m : Meta} {a : Arr} {q : CC × FS} (h : insertInto C cc fs m a (.append 0) = .ok q) (ha : a.Ok C)
    {s : List (Nat × Entry)} (hs : CRel (max 1 C.size) cc.cache s) : Slack C m.id (a.shape.getD 0 0) q.1.cache := by
  unfold insertInto at h
  obtain ⟨_, h0, h⟩ := Res.bind_eq_ok.1 h
  obtain ⟨q1, h1, h⟩ := Res.bind_eq_ok.1 h
  obtain ⟨r, h2, h⟩ := Res.bind_eq_ok.1 h
  obtain ⟨b, h3, h⟩ := Res.bind_eq_ok.1 h
  cases h
  rw [hs.contains] at h0
  have hj : m.id ∉ s.map Prod.fst := fun hm => by rw [decide_eq_true hm] at h0; cases h0
  obtain ⟨s', g1, g2⟩ := insert_calm h1 h2 hs hj
  refine ⟨s', g1, fun e he => ?_⟩
  rcases g2 _ he with g | g
  · exact absurd (List.mem_map.2 ⟨_, g, rfl⟩) hj
  · have g' : e = _ := (Prod.ext_iff.1 g).2
    subst g'
    refine .inr ⟨rfl, ?_⟩
    obtain ⟨b', k1, _, k3⟩ := assign_spec hC ha (r.1.payload r.2).data
    unfold assignArr at h3
    rw [k1] at h3
    simp only [Res.ok_bind] at h3
    cases h3
    rw [k3.1]; exact Nat.le_refl _

theorem appendChunk_slack (hC : C.Ok) {M : Chunks} {cc : CC} {fs : FS} {s : List (Nat × Entry)} (hM : M.Ok C) (h : CInv C M cc fs s) {m : Meta} {a v : Arr}
    (hm : M m.id = some (m, a)) (hv : v.Ok C) (he : Extends C a v) {n : Nat} (hk : Slack C m.id n cc.cache) {q : CC × FS × Meta}
    (hq : appendChunk C 0 cc fs m v = .ok q) : Slack C m.id (n + v.shape.getD 0 0) q.1.cache := by
  unfold appendChunk at hq
  split at hq
  · cases hq
  obtain ⟨q1, h1, hq⟩ := Res.bind_eq_ok.1 hq
  obtain ⟨q2, h2, hq⟩ := Res.bind_eq_ok.1 hq
  cases hq
  refine Slack.calm ?_ (flushIf_calm h2 _)
  have more : ∀ {c}, Slack C m.id (v.shape.getD 0 0) c → Slack C m.id (n + v.shape.getD 0 0) c := fun ⟨s, g1, g2⟩ => ⟨s, g1, fun e he => by
    rcases g2 e he with g | g
    · exact .inl g
    · exact .inr ⟨g.1, by have := g.2; omega⟩⟩
  split at h1
  · rename_i hc
    obtain ⟨r, h3, h1⟩ := Res.bind_eq_ok.1 h1
    rw [h.rel.contains] at hc
    obtain ⟨e0, he0⟩ := mem_of_key (of_decide_eq_true hc)
    obtain ⟨r', g1, g2, g3, g4⟩ := h.rel.get he0
    rw [h3] at g1; cases g1
    obtain ⟨s', k1, k2⟩ := hk
    have hst := k2 e0 (crel_mem h.rel k1 he0)
    obtain ⟨m0, a0, h5, h6⟩ := h.cached _ _ he0
    rw [hm] at h5; cases h5
    simp only [g2] at h1
    rcases hst with hst | ⟨hst, hle⟩
    · rw [hst] at h1
      simp only at h1
      obtain ⟨r1, h4, h1⟩ := Res.bind_eq_ok.1 h1
      obtain ⟨s1, k1, _⟩ := evict_calm (k := m.id) h4 g3 (evict_mem h4 g3)
      exact more (insertInto_slack (cc := { cc with cache := r1.1 }) (m := m.grow 0 (v.shape.getD 0 0)) hC h1 hv k1)
    · have hdata := h6.stat
      rw [hst] at h1 hdata
      simp only at h1
      obtain ⟨_, _, b, f, q3, _, _, q6, q7⟩ := hdata
      obtain ⟨n1, l1, R1, t1, t2, t3⟩ := q6.shapes hC q3 h6.ok
      obtain ⟨n2, l2, R2, s1, s2, s3⟩ := he.shapes hC (hM.arr _ _ _ hm) hv
      have hsa := cat_shape t1 t2
      rw [q7.1, s1] at hsa
      simp only [List.cons.injEq] at hsa
      obtain ⟨e1, rfl⟩ := hsa
      have happ : appendArr C e0.data v 0 = .ok (e0.data.cat v) := by
        unfold appendArr
        rw [append_eq_cat t2 s2 (by omega) h6.ok.len hv.len]; rfl
      unfold appendPending at h1
      simp only [ne_eq, not_true, if_false, Res.ok_bind, happ] at h1
      cases h1
      refine ⟨_, g4 _, fun e he => ?_⟩
      rcases List.mem_append.1 he with g | g
      · exact absurd rfl (keyGone_sub g).2
      · rw [List.mem_singleton] at g
        have g' : e = _ := (Prod.ext_iff.1 g).2
        subst g'
        refine .inr ⟨hst, ?_⟩
        show (e0.data.cat v).shape.getD 0 0 ≤ _
        rw [t2] at hle
        rw [cat_shape t2 s2, s2]
        simp only [List.getD_cons_zero] at hle ⊢
        omega
  · exact more (insertInto_slack (m := m.grow 0 (v.shape.getD 0 0)) hC h1 hv h.rel)

theorem libAppend_slack (hC : C.Ok) {lib : Lib} {fs : FS} {cs : List (Meta × Arr)} (h : LInv C S Z lib fs cs) {j : Nat} {m : Meta} {a v : Arr} {start : List Nat}
    (ha : AppOk C cs j m a start v) {q : Lib × FS} (hq : lib.append C 0 fs start v = .ok q) {n : Nat} (hk : Slack C m.id n lib.cc.cache) :
    Slack C m.id (n + v.shape.getD 0 0) q.1.cc.cache := by
  obtain ⟨x, e1⟩ := append_found hC h ha
  obtain ⟨s, hs⟩ := h.cache
  unfold Lib.append at hq
  simp only at hq
  rw [e1] at hq
  simp only [Res.ok_bind] at hq
  split at hq
  · cases hq
  · obtain ⟨_, f1, hq⟩ := Res.bind_eq_ok.1 hq
    obtain ⟨_, _, hq⟩ := Res.bind_eq_ok.1 hq
    cases hq
    exact appendChunk_slack hC h.chunky.ok hs (chunksOf_of_mem h.chunky.ids (List.mem_of_getElem? ha.at_)) ha.arr ha.ext hk f1

theorem Extended.extend {p p' : Piece} (h : Extended p p') (hl : 0 < p.stop.length) (s : Arr) :
    Extended p (p'.extend C s) ∧ (p'.extend C s).stop.getD 0 0 - p.stop.getD 0 0 = p'.stop.getD 0 0 - p.stop.getD 0 0 + s.shape.getD 0 0 := by
  obtain ⟨n, hn⟩ := h.stop
  have hg : p'.stop.getD 0 0 = p.stop.getD 0 0 + n := by rw [hn, getD_set0 hl, if_pos rfl]
  have hs : (p'.extend C s).stop = p.stop.set 0 (p.stop.getD 0 0 + (n + s.shape.getD 0 0)) := by
    show p'.stop.set 0 (p'.stop.getD 0 0 + s.shape.getD 0 0) = _
    rw [hg, hn, List.set_set, Nat.add_assoc]
  refine ⟨⟨h.id, h.file, h.start, h.overlap, ⟨_, hs⟩, fun i hi => ?_⟩, ?_⟩
  · show (if i.getD 0 0 < p'.stop.getD 0 0 then p'.val i else _) = _
    have h0 := hi.2.2 0 (by rw [hi.2.1]; exact hl)
    rw [if_pos (by omega)]
    exact h.val i hi
  · rw [hs, getD_set0 hl, if_pos rfl, hg]; omega

/-! ### Reading -/

/-- The file of the chunk has its values at the places where a library that lists the chunk looks for them. -/
def FileHas (C : Cfg) (fs : FS) (d : Nat) (p : Piece) : Prop :=
  p.file ≠ [] → ∃ b f, b.Ok C ∧ fs (d, .chunk p.file) = some f ∧ FileHolds C f b ∧ ∀ i, InBox p.start p.stop i →
    ValidInd b.shape ((subVec i p.start).map (· + p.overlap)) ∧ ∃ v, b.get C.vd ((subVec i p.start).map (· + p.overlap)) = .ok v ∧ VEq (p.val i) v

theorem Extended.inBox {p p' : Piece} (h : Extended p p') (hl : 0 < p.stop.length) {i : List Nat} (hi : InBox p.start p.stop i) : InBox p'.start p'.stop i := by
  obtain ⟨n, hn⟩ := h.stop
  rw [h.start, hn]
  refine ⟨hi.1, by simpa using hi.2.1, fun d hd => ?_⟩
  have := hi.2.2 d hd
  rw [getD_set0 hl]
  split
  · rename_i e; subst e; omega
  · exact this

/-- It suffices that the index lists the chunk with or without the slices appended to it. -/
theorem readable_file (hC : C.Ok) (Z : SlabSize) {fs : FS} {d : Nat} {ps : List Piece} (hl : Lists C fs d ps) {p p' : Piece} (hp : p' ∈ ps) (hx : Extended p p')
    (hn : ps.length < 2 ^ 64) (hf : FileHas C fs d p) : Readable C S fs d p := by
  intro init i hi hplain
  obtain ⟨cs0, k1, k2, k3⟩ := hl
  obtain ⟨c0, m1, m2⟩ := k3.rightMem hp
  have hpl := k1.placed c0 m1
  have kd := hC.dims
  have hlen : 0 < p.stop.length := by
    obtain ⟨n, hn⟩ := hx.stop
    have h1 := hpl.stopLen
    rw [m2.stop, hn] at h1; simp at h1; omega
  have hi' := hx.inBox hlen hi
  have hplain : p'.Plain := fun e => by rw [hx.overlap]; exact hplain (hx.file.symm.trans e)
  have hi0 : InBox c0.1.start c0.1.stop i := by rw [m2.start, m2.stop]; exact hi'
  have hlk : chunksOf cs0 c0.1.id = some (c0.1, c0.2) := chunksOf_of_mem k1.ids m1
  -- the contents
  obtain ⟨b, b1, b2, b3, b4, u, b5, b6⟩ : ∃ b, b.Ok C ∧ OnDisk C d fs c0.1 b ∧ (c0.1.ctype = .all_null → c0.1.path = [] ∧ AEq C.vd (zeros C.vd c0.1.shape) b) ∧
      ValidInd b.shape (localInd c0.1 i) ∧ ∃ v, b.get C.vd (localInd c0.1 i) = .ok v ∧ VEq (p.val i) v := by
    by_cases hfile : p.file = []
    · have hct : c0.1.ctype ≠ .specified := fun e => (path_iff k1 m1).2 e (m2.file.trans (hx.file.trans hfile))
      exact ⟨c0.2, k1.ok.arr _ _ _ hlk, fun e => absurd e hct, k1.ok.null _ _ _ hlk, valid_local hpl hi0, by
        rw [← hx.val i hi]; exact m2.val i hi'⟩
    · obtain ⟨b, f, g1, g2, g3, g4⟩ := hf hfile
      have hct : c0.1.ctype = .specified := (path_iff k1 m1).1 (by rw [m2.file, hx.file]; exact hfile)
      have hloc : localInd c0.1 i = (subVec i p.start).map (· + p.overlap) := by
        unfold localInd padOf
        rw [hct, m2.start, m2.overlap, hx.start, hx.overlap]; rfl
      rw [hloc]
      refine ⟨b, g1, fun _ => ⟨f, ?_, g3⟩, (fun e => by rw [hct] at e; cases e), g4 i hi⟩
      unfold absPath; rw [m2.file, hx.file]; exact g2
  let M : Chunks := fun k => if k = c0.1.id then some (c0.1, b) else none
  have hM1 : ∀ k v, M k = some v → k = c0.1.id ∧ v = (c0.1, b) := fun k v hk => by
    by_cases e : k = c0.1.id
    · simp only [M, if_pos e] at hk; cases hk; exact ⟨e, rfl⟩
    · simp only [M, if_neg e] at hk; cases hk
  have hM2 : M c0.1.id = some (c0.1, b) := by simp [M]
  have hMok : M.Ok C := by
    refine ⟨fun k m a hk => ?_, fun k m a hk => ?_, fun k m a hk => ?_, fun k m a hk => ?_, fun k m a k' m' a' hk hk' _ _ => ?_⟩
    · obtain ⟨e1, e2⟩ := hM1 _ _ hk; cases e2; exact e1.symm
    · obtain ⟨e1, e2⟩ := hM1 _ _ hk; cases e2; exact b1
    · obtain ⟨e1, e2⟩ := hM1 _ _ hk; cases e2; exact k1.ok.spec _ _ _ hlk
    · obtain ⟨e1, e2⟩ := hM1 _ _ hk; cases e2; exact b3
    · rw [(hM1 _ _ hk).1, (hM1 _ _ hk').1]
  -- opening
  obtain ⟨t, e1, e2⟩ := (IdxInv.empty (C := C) (S := S) (Z := Z) d).insertAll_ok hC (cs0.map Prod.fst) (fun m hm => by
    obtain ⟨c, hc, rfl⟩ := List.mem_map.1 hm
    exact (k1.placed c hc).isBox)
  obtain ⟨cc, e3, e4, e5⟩ := cinv_of_disk (C := C) (M := M) (fs := fs) (dir := d) (fun k m a hk => by
    obtain ⟨_, e⟩ := hM1 _ _ hk; cases e; exact b2) init
  have hopen : Lib.open C S fs d init = .ok ⟨cc, { Index.empty C d with tree := t, heap := (Index.empty C d).heap ++ cs0.map Prod.fst }⟩ := by
    unfold Lib.open Index.open
    rw [k2]
    simp only [load_ok k1 (by rw [k3.1]; exact hn) k2, Res.ok_bind]
    rw [e1]
    simp only [Res.ok_bind]
    rw [e3]; rfl
  generalize { Index.empty C d with tree := t, heap := (Index.empty C d).heap ++ cs0.map Prod.fst } = x at e2 hopen
  have e2' : IdxInv C S Z x (cs0.map Prod.fst) := by simpa using e2
  -- reading
  obtain ⟨k, hk⟩ := List.getElem?_of_mem m1
  obtain ⟨t', f1, _⟩ := e2'.getChunk_ok hC (hpl.point hi0) (i := k) (m := c0.1) (by rw [List.getElem?_map, hk]; rfl) (k1.onlyAt hk hi0)
  obtain ⟨cc', fs', s', b', g1, _, _, _, g5, _⟩ := retrieve_ok hC hMok e5 (m := c0.1) (a := b) hM2
  obtain ⟨v, w, q1, q2, q3⟩ := g5.2 _ b4
  have hil : i.length = C.dims := by rw [hi0.1, hpl.startLen]
  have hoff : vsub i c0.1.offset = localInd c0.1 i :=
    vsub_offset hpl (RepOne.plain k1 m1 m2 hplain) hil fun d hd => by have := hi0.2.2 d (by omega); omega
  rw [q1] at b5; cases b5
  refine ⟨⟨some ⟨cc', { x with tree := t', valid := false }⟩, fs'⟩, w, ?_, b6.trans q3⟩
  simp only [MState.run, MState.step, hopen, Res.ok_bind]
  unfold Lib.get
  simp only [f1, Res.ok_bind]
  rw [g1]
  simp only [Res.ok_bind]
  rw [hoff, q2]; rfl

/-- What the chunk contained is in its file. -/
theorem LInv.fileHas (hC : C.Ok) {cc : CC} {fs : FS} {cs : List (Meta × Arr)} {s : List (Nat × Entry)} (hch : Chunky C cs) (hs : CInv C (chunksOf cs) cc fs s)
    {ps : List Piece} (hr : Rep C cs ps) {p p' : Piece} (hp : p' ∈ ps) (hx : Longer C p p' cc.cache) : FileHas C fs cc.dir p := by
  intro hfile
  obtain ⟨c, n1, n2⟩ := hr.rightMem hp
  have hpl := hch.placed c n1
  have kd := hC.dims
  have hlk : chunksOf cs c.1.id = some (c.1, c.2) := chunksOf_of_mem hch.ids n1
  have hct : c.1.ctype = .specified := (path_iff hch n1).1 (by rw [n2.file, hx.1.file]; exact hfile)
  obtain ⟨n, hn⟩ := hx.1.stop
  have hlen : 0 < p.stop.length := by
    have h1 := hpl.stopLen
    rw [n2.stop, hn] at h1; simp at h1; omega
  have hpad : padOf c.1 = p.overlap := by unfold padOf; rw [hct, n2.overlap, hx.1.overlap]; rfl
  have hloc : ∀ i, (subVec i p.start).map (· + p.overlap) = localInd c.1 i := fun i => by
    unfold localInd; rw [hpad, n2.start, hx.1.start]
  have hpath : absPath cc.dir c.1 = (cc.dir, .chunk p.file) := by unfold absPath; rw [n2.file, hx.1.file]
  have whole : OnDisk C cc.dir fs c.1 c.2 → ∃ b f, b.Ok C ∧ fs (cc.dir, .chunk p.file) = some f ∧ FileHolds C f b ∧ ∀ i, InBox p.start p.stop i →
        ValidInd b.shape ((subVec i p.start).map (· + p.overlap)) ∧ ∃ v, b.get C.vd ((subVec i p.start).map (· + p.overlap)) = .ok v ∧ VEq (p.val i) v := fun hod => by
    obtain ⟨f, f1, f2⟩ := hod hct
    refine ⟨c.2, f, hch.ok.arr _ _ _ hlk, by rw [← hpath]; exact f1, f2, fun i hi => ?_⟩
    have hi' := hx.1.inBox hlen hi
    rw [hloc]
    refine ⟨valid_local hpl (by rw [n2.start, n2.stop]; exact hi'), ?_⟩
    rw [← hx.1.val i hi]; exact n2.val i hi'
  by_cases hm : c.1.id ∈ s.map Prod.fst
  · obtain ⟨e, he⟩ := mem_of_key hm
    obtain ⟨s', h1, h2⟩ := hx.2
    have hst := h2 e (by rw [← hx.1.id, ← n2.id]; exact crel_mem hs.rel h1 he)
    obtain ⟨m, a, h3, h4⟩ := hs.cached _ _ he
    rw [hlk] at h3; cases h3
    have h5 := h4.stat
    rcases hst with hst | ⟨hst, hle⟩
    · rw [hst] at h5; exact whole h5.2
    · rw [hst] at h5
      obtain ⟨_, _, b, f, q3, q4, q5, q6, q7⟩ := h5
      refine ⟨b, f, q3, by rw [← hpath]; exact q4, q5, fun i hi => ?_⟩
      obtain ⟨n1', l1, R1, t1, t2, t3⟩ := q6.shapes hC q3 h4.ok
      have hsa := cat_shape t1 t2
      have hi' := hx.1.inBox hlen hi
      have hi2 : InBox c.1.start c.1.stop i := by rw [n2.start, n2.stop]; exact hi'
      have hv := valid_local hpl hi2
      rw [hloc]
      have hil : i.length = C.dims := by rw [hi2.1, hpl.startLen]
      -- the row
      have hrow : (localInd c.1 i).getD 0 0 < n1' := by
        rw [getD_localInd hi2.1 (by omega)]
        have b1 := hi.2.2 0 (by rw [hi.2.1]; exact hlen)
        have b2 := hpl.getD_stop 0
        have b3 := congrArg (fun l => l.getD 0 0) (hsa.symm.trans (q7.1.trans hpl.arr))
        have b4 : p'.stop.getD 0 0 = p.stop.getD 0 0 + n := by rw [hn, getD_set0 hlen, if_pos rfl]
        have hsl := hpl.shapeLen
        have b5 : (c.1.shape.map (· + 2 * padOf c.1)).getD 0 0 = c.1.shape.getD 0 0 + 2 * padOf c.1 := by
          cases hsh : c.1.shape with
          | nil => rw [hsh] at hsl; simp at hsl; omega
          | cons x xs => simp
        simp only [b5, List.getD_cons_zero] at b3
        rw [t2] at hle
        simp only [List.getD_cons_zero] at hle
        rw [n2.start, n2.stop, hx.1.start] at b2
        rw [n2.start, hx.1.start]
        omega
      have hcons : ∃ x xs, localInd c.1 i = x :: xs := by
        cases hq : localInd c.1 i with
        | nil =>
          have := length_localInd (m := c.1) hi2.1
          rw [hq] at this; simp at this; omega
        | cons x xs => exact ⟨x, xs, rfl⟩
      obtain ⟨x, xs, hxx⟩ := hcons
      have hsh : c.2.shape = (n1' + l1) :: R1 := q7.1.symm.trans hsa
      rw [hsh, hxx] at hv
      have hrow' : x < n1' := by rw [hxx] at hrow; simpa using hrow
      rw [hxx]
      refine ⟨by rw [t1, validInd_cons]; exact ⟨hrow', ((validInd_cons ..).1 hv).2⟩, ?_⟩
      obtain ⟨v, w, r1, r2, r3⟩ := q7.2 (x :: xs) (by rw [hsa]; exact hv)
      rw [cat_get t1 t2 (by omega) q3.len h4.ok.len hv, if_pos hrow'] at r1
      obtain ⟨v', z1, z2⟩ := n2.val i hi'
      rw [hxx, r2] at z1; cases z1
      exact ⟨v, r1, by rw [← hx.1.val i hi]; exact z2.trans r3.symm⟩
  · exact whole (hs.disk _ _ _ hlk hm)

end Verif.Dist
