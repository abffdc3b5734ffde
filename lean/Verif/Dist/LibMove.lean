import Verif.Dist.LibSwap
/-
Moving, clearing and importing libraries.
-/
namespace Verif.Dist
open Verif Verif.ND Verif.Tree Verif.Bytes Verif.Stream Verif.NullSup

variable {C : Cfg} {S : Sorter} {Z : SlabSize}

/-! ### MoveLibrary -/

theorem moveLib_ok (hC : C.Ok) {lib : Lib} {fs : FS} {cs : List (Meta × Arr)} (h : LInv C S Z lib fs cs) {dir : Nat} (hd : dir ≠ lib.idx.dir) :
    ∃ lib' fs', lib.move C fs dir = .ok (lib', fs') ∧ LInv C S Z lib' fs' cs ∧ lib'.idx.nextId = lib.idx.nextId ∧ lib'.idx.dir = dir ∧
      fs' (lib.idx.dir, .index) = none ∧ (∀ n, fs' (lib.idx.dir, .chunk n) = none) ∧ Saved C fs' dir cs ∧
      (∀ p, p.1 ≠ lib.idx.dir → p.1 ≠ dir → fs' p = fs p) ∧
      (∀ n, fs' (dir, .chunk n) ≠ none → fs (dir, .chunk n) ≠ none ∨ fs (lib.idx.dir, .chunk n) ≠ none ∨ ∃ c ∈ cs, c.1.path ≠ [] ∧ c.1.path = n) := by
  obtain ⟨s, hs⟩ := h.cache
  obtain ⟨cc', fs1, e1, e2, e3, e4⟩ := flush_ok hC h.chunky.ok hs
  have hcd : cc'.dir = lib.idx.dir := e2.trans h.dir
  have hx : IdxInv C S Z { lib.idx with dir := dir } (cs.map Prod.fst) := h.idx.congr rfl rfl
  let fs2 := moveFiles lib.idx.dir dir fs1
  let fs3 := (fs2.set (lib.idx.dir, .index) none).set (dir, .index) (some (indexFile C (cs.map Prod.fst)))
  have hdisk : ∀ k m a, chunksOf cs k = some (m, a) → OnDisk C dir fs3 m a := by
    intro k m a hk hsp
    obtain ⟨f, f1, f2⟩ := e3.disk k m a hk (by simp) hsp
    refine ⟨f, ?_, f2⟩
    show fs3 (dir, .chunk m.path) = _
    show ((fs2.set _ _).set _ _) (dir, .chunk m.path) = _
    rw [set_index_chunk, set_index_chunk]
    show moveFiles lib.idx.dir dir fs1 (dir, .chunk m.path) = _
    rw [← hcd]
    have : fs1 (cc'.dir, .chunk m.path) = some f := f1
    simp only [moveFiles, if_true]
    rw [this]
  refine ⟨⟨{ cc' with dir := dir }, { lib.idx with dir := dir }⟩, fs3, ?_, ⟨h.chunky, hx, rfl, ⟨[], e3.rel, fun k e he => (by cases he), fun k m a hk _ => hdisk k m a hk⟩, ?_⟩,
    rfl, rfl, ?_, ?_, ⟨h.chunky, set_index_self _ _ _, hdisk⟩, ?_, ?_⟩
  · unfold Lib.move moveCache Index.move
    rw [e1]
    simp only [Res.ok_bind]
    rw [decide_eq_true hd]
    show Res.bind _ _ = _
    rw [index_flush_ok hx, hcd]; rfl
  · intro hv
    obtain ⟨y, h1, h2⟩ := h.valid hv
    refine ⟨{ y with dir := dir }, ?_, h2⟩
    revert h1
    unfold Index.calc Index.all
    simp only
    split
    · intro h1; cases h1; rfl
    · cases Tree.getBoundingBox lib.idx.tree <;> simp only [Res.bind] <;> try (intro h1; cases h1)
      cases derefAll lib.idx.heap (Tree.getAllEntries lib.idx.tree) <;> simp only [Res.bind] <;> intro h1 <;> cases h1
      rfl
  · show (FS.set _ _ _) _ = none
    unfold FS.set
    rw [if_neg (by intro e; exact hd (Prod.ext_iff.1 e).1.symm), if_pos rfl]
  · intro n
    show ((fs2.set _ _).set _ _) _ = _
    rw [set_index_chunk, set_index_chunk]
    show moveFiles lib.idx.dir dir fs1 (lib.idx.dir, .chunk n) = none
    simp only [moveFiles]
    rw [if_neg (fun e => hd e.symm)]; simp
  · rintro ⟨d, n⟩ h1 h2
    have h1 : d ≠ lib.idx.dir := h1
    have h2 : d ≠ dir := h2
    have hfs1 : fs1 (d, n) = fs (d, n) := e4 _ fun k m a _ _ e => h1 (by rw [← h.dir]; exact (Prod.ext_iff.1 e).1)
    cases n with
    | index =>
      show (FS.set _ _ _) _ = _
      unfold FS.set
      rw [if_neg (fun e => h2 (Prod.ext_iff.1 e).1), if_neg (fun e => h1 (Prod.ext_iff.1 e).1)]
      exact hfs1
    | chunk n =>
      show ((fs2.set _ _).set _ _) _ = _
      rw [set_index_chunk, set_index_chunk]
      show moveFiles lib.idx.dir dir fs1 (d, .chunk n) = _
      simp only [moveFiles]
      rw [if_neg h2, if_neg h1, hfs1]
  · intro n hn
    have hn : moveFiles lib.idx.dir dir fs1 (dir, .chunk n) ≠ none := by
      have e : fs3 (dir, .chunk n) = moveFiles lib.idx.dir dir fs1 (dir, .chunk n) := by
        show ((fs2.set _ _).set _ _) _ = _
        rw [set_index_chunk, set_index_chunk]
      rw [← e]; exact hn
    simp only [moveFiles, if_true] at hn
    cases hf : fs1 (lib.idx.dir, .chunk n) with
    | none =>
      rw [hf] at hn
      left
      rwa [e4 (dir, .chunk n) fun k m a _ _ e => hd (by rw [← h.dir]; exact (Prod.ext_iff.1 e).1)] at hn
    | some f =>
      right
      by_cases hc : ∃ c ∈ cs, c.1.path ≠ [] ∧ c.1.path = n
      · exact Or.inr hc
      · left
        rw [e4 (lib.idx.dir, .chunk n) fun k m a hk hp e => hc ⟨(m, a), (chunksOf_mem hk).1, hp, by
          have h9 : Name.chunk n = Name.chunk m.path := (Prod.ext_iff.1 e).2
          injection h9 with h9
          exact h9.symm⟩] at hf
        rw [hf]; simp

/-! ### ClearLibrary -/

theorem chunky_nil : Chunky C [] :=
  ⟨fun c h => (by cases h), .nil, .nil, ⟨fun k m a h => (by cases h), fun k m a h => (by cases h), fun k m a h => (by cases h), fun k m a h => (by cases h),
    fun k m a _ _ _ h => (by cases h)⟩⟩

theorem clearLib_ok (hC : C.Ok) {lib : Lib} {fs : FS} {cs : List (Meta × Arr)} (h : LInv C S Z lib fs cs) :
    ∃ lib' fs', lib.clear C fs = .ok (lib', fs') ∧ LInv C S Z lib' fs' [] ∧ lib'.idx.nextId = lib.idx.nextId ∧ lib'.idx.dir = lib.idx.dir ∧
      (∀ n, fs' (lib.idx.dir, n) = none) ∧ (∀ p, p.1 ≠ lib.idx.dir → fs' p = fs p) := by
  have h' := h.frameIndex (fs' := fs.set (lib.idx.dir, .index) none) (fun n => set_index_chunk _ _ _ _ _)
  obtain ⟨s, hs⟩ := h'.cache
  obtain ⟨cc', fs1, e1, e2, e3, e4⟩ := flush_ok hC h.chunky.ok hs
  have hcd : cc'.dir = lib.idx.dir := e2.trans h.dir
  refine ⟨⟨cc', { lib.idx with valid := false, shape := List.replicate C.dims 0, tree := Tree.clear lib.idx.tree, heap := [] }⟩,
    fun p => match p.2 with | .index => fs1 p | .chunk _ => if p.1 = cc'.dir then none else fs1 p, ?_, ⟨chunky_nil, ⟨rfl, ?_, .clear h.idx.reach, fun m hm => (by cases hm)⟩, hcd,
      ⟨[], e3.rel, fun k e he => (by cases he), fun k m a hk => (by cases hk)⟩, metaValid_false rfl⟩, rfl, rfl, ?_, ?_⟩
  · unfold Lib.clear Index.clear clearCache
    simp only
    rw [e1]; rfl
  · intro i; simp [Tree.clear, Tree.empty]
  · intro n
    cases n with
    | chunk n => show (if lib.idx.dir = cc'.dir then none else _) = none; rw [if_pos hcd.symm]
    | index => show fs1 (lib.idx.dir, .index) = none; rw [sameBut_index e4, set_index_self]
  · rintro ⟨d, n⟩ h1
    have h1 : d ≠ lib.idx.dir := h1
    have hfs1 : fs1 (d, n) = fs (d, n) := by
      rw [e4 _ fun k m a _ _ e => h1 (by rw [← h.dir]; exact (Prod.ext_iff.1 e).1)]
      unfold FS.set; rw [if_neg (fun e => h1 (Prod.ext_iff.1 e).1)]
    cases n with
    | index => exact hfs1
    | chunk n => show (if d = cc'.dir then none else _) = _; rw [if_neg (by rw [hcd]; exact h1)]; exact hfs1

/-! ### ImportLibrary -/

/-- The same chunks with identifiers from `n` on. -/
def numbered (n : Nat) (cs : List (Meta × Arr)) : List (Meta × Arr) := cs.zipIdx.map fun q => ({ q.1.1 with id := n + q.2 }, q.1.2)

theorem renumber_eq : ∀ (n : Nat) (cs : List (Meta × Arr)) (_ : n + cs.length < 2 ^ 64) (k : Nat) ,
    renumber (n + k) (cs.map Prod.fst) = ((cs.zipIdx k).map (fun q => { q.1.1 with id := n + q.2 }), n + k + cs.length) ∨ 2 ^ 64 ≤ n + k + cs.length
  | n, [], _, k => Or.inl rfl
  | n, c :: cs, h, k => by
      by_cases hk : 2 ^ 64 ≤ n + k + (c :: cs).length
      · exact Or.inr hk
      · left
        simp only [List.length_cons] at h hk
        have hU : U64 = 2 ^ 64 := rfl
        have ih := renumber_eq n cs (by omega) (k + 1)
        rcases ih with ih | ih
        · simp only [List.map_cons, renumber, List.zipIdx_cons]
          rw [wadd_eq (by omega), show n + k + 1 = n + (k + 1) by omega, ih]
          simp only [List.length_cons, Prod.mk.injEq, true_and]
          omega
        · omega

theorem renumber_ok {n : Nat} {cs : List (Meta × Arr)} (h : n + cs.length < 2 ^ 64) : renumber n (cs.map Prod.fst) = ((numbered n cs).map Prod.fst, n + cs.length) := by
  rcases renumber_eq n cs h 0 with h1 | h1
  · rw [Nat.add_zero] at h1
    rw [h1]
    simp [numbered]
  · omega

theorem numbered_mem {n : Nat} {cs : List (Meta × Arr)} {c : Meta × Arr} (h : c ∈ numbered n cs) :
    ∃ (k : Nat) (c₀ : Meta × Arr), cs[k]? = some c₀ ∧ c = ({ c₀.1 with id := n + k }, c₀.2) := by
  unfold numbered at h
  obtain ⟨q, h1, h2⟩ := List.mem_map.1 h
  rw [List.mem_zipIdx_iff_getElem?] at h1
  exact ⟨q.2, q.1, h1, h2.symm⟩

theorem numbered_get {n : Nat} {cs : List (Meta × Arr)} (k : Nat) : (numbered n cs)[k]? = (cs[k]?).map fun c => ({ c.1 with id := n + k }, c.2) := by
  unfold numbered
  rw [List.getElem?_map, List.getElem?_zipIdx]
  cases cs[k]? <;> simp

theorem numbered_ids {n : Nat} {cs : List (Meta × Arr)} : (numbered n cs).map (·.1.id) = (List.range cs.length).map (n + ·) := by
  apply List.ext_getElem?
  intro k
  rw [List.getElem?_map, numbered_get, List.getElem?_map]
  by_cases hk : k < cs.length
  · rw [List.getElem?_eq_getElem hk, List.getElem?_range hk]; rfl
  · rw [List.getElem?_eq_none (by omega), List.getElem?_eq_none (by simp; omega)]; rfl

/-- Conditions for importing the library with chunks `cs'`. -/
structure ImpOk (C : Cfg) (fs : FS) (dir dir' : Nat) (n : Nat) (cs cs' : List (Meta × Arr)) : Prop where
  ne : dir' ≠ dir
  fresh : ∀ c ∈ cs, c.1.id < n
  small : n + cs'.length < 2 ^ 64
  disj : ∀ c ∈ cs, ∀ c' ∈ cs', DisjointBox c.1.start c.1.stop c'.1.start c'.1.stop
  paths : ∀ c ∈ cs, c.1.path ≠ [] → fs (dir', .chunk c.1.path) = none ∧ ∀ c' ∈ cs', c.1.path ≠ c'.1.path

theorem numbered_nodup {n : Nat} {cs : List (Meta × Arr)} : ((numbered n cs).map (·.1.id)).Nodup := by
  rw [numbered_ids]
  unfold List.Nodup
  rw [List.pairwise_map]
  exact List.nodup_range.imp fun h e => h (by omega)

theorem import_chunky {fs : FS} {dir dir' n : Nat} {cs cs' : List (Meta × Arr)} (h : Chunky C cs) (h' : Chunky C cs') (hi : ImpOk C fs dir dir' n cs cs') :
    Chunky C (cs ++ numbered n cs') := by
  have hids : ((cs ++ numbered n cs').map (·.1.id)).Nodup := by
    rw [List.map_append, List.nodup_append]
    refine ⟨h.ids, numbered_nodup, fun x hx y hy e => ?_⟩
    subst e
    obtain ⟨c, c1, rfl⟩ := List.mem_map.1 hx
    have := hi.fresh c c1
    rw [numbered_ids] at hy
    obtain ⟨k, _, hk⟩ := List.mem_map.1 hy
    omega
  have look : ∀ {k m a}, chunksOf (cs ++ numbered n cs') k = some (m, a) → ((m, a) ∈ cs ∧ m.id = k) ∨
      ∃ j m₀, cs'[j]? = some (m₀, a) ∧ m = { m₀ with id := n + j } ∧ k = n + j := by
    intro k m a hk
    obtain ⟨h1, h2⟩ := chunksOf_mem hk
    rcases List.mem_append.1 h1 with h1 | h1
    · exact Or.inl ⟨h1, h2⟩
    · obtain ⟨j, c₀, g1, g2⟩ := numbered_mem h1
      cases g2
      exact Or.inr ⟨j, c₀.1, g1, rfl, h2.symm⟩
  have L : ∀ {c}, c ∈ cs → chunksOf cs c.1.id = some c := fun hc => chunksOf_of_mem h.ids hc
  have L' : ∀ {j c}, cs'[j]? = some c → chunksOf cs' c.1.id = some c := fun hc => chunksOf_of_mem h'.ids (List.mem_of_getElem? hc)
  refine ⟨fun c hc => ?_, ?_, hids, ⟨fun k m a hk => ?_, fun k m a hk => ?_, fun k m a hk => ?_, fun k m a hk => ?_, fun k m a k' m' a' hk hk' => ?_⟩⟩
  · rcases List.mem_append.1 hc with hc | hc
    · exact h.placed c hc
    · obtain ⟨j, c₀, g1, rfl⟩ := numbered_mem hc
      have hp := h'.placed c₀ (List.mem_of_getElem? g1)
      have hj : j < cs'.length := by
        rcases Nat.lt_or_ge j cs'.length with h | h
        · exact h
        · rw [List.getElem?_eq_none h] at g1; cases g1
      have := hi.small
      exact ⟨hp.startLen, hp.shapeLen, hp.pos, hp.stop, hp.lt, hp.ovl, hp.offset, hp.arr, by show n + j < 2 ^ 64; omega, hp.path⟩
  · unfold Disj
    rw [List.pairwise_append]
    refine ⟨h.disj, ?_, fun c hc c' hc' => ?_⟩
    · unfold numbered
      rw [List.pairwise_map]
      have : (cs'.zipIdx.map Prod.fst).Pairwise fun c c' => DisjointBox c.1.start c.1.stop c'.1.start c'.1.stop := by
        rw [List.zipIdx_map_fst]; exact h'.disj
      rw [List.pairwise_map] at this
      exact this
    · obtain ⟨j, c₀, g1, rfl⟩ := numbered_mem hc'
      exact hi.disj c hc c₀ (List.mem_of_getElem? g1)
  · exact (chunksOf_mem hk).2
  · rcases look hk with ⟨h1, _⟩ | ⟨j, m₀, g1, _, _⟩
    · exact h.ok.arr _ _ _ (L h1)
    · exact h'.ok.arr _ _ _ (L' g1)
  · rcases look hk with ⟨h1, _⟩ | ⟨j, m₀, g1, rfl, _⟩
    · exact h.ok.spec _ _ _ (L h1)
    · exact h'.ok.spec m₀.id m₀ a (L' g1)
  · rcases look hk with ⟨h1, _⟩ | ⟨j, m₀, g1, rfl, _⟩
    · exact h.ok.null _ _ _ (L h1)
    · exact h'.ok.null m₀.id m₀ a (L' g1)
  · intro hne he
    rcases look hk with ⟨h1, h1'⟩ | ⟨j, m₀, g1, g2, g3⟩
    · rcases look hk' with ⟨h2, h2'⟩ | ⟨j', m₀', g1', g2', g3'⟩
      · have := h.ok.inj _ _ _ _ _ _ (L h1) (L h2) hne he
        rw [← h1', ← h2']; exact this
      · subst g2'
        exact absurd he ((hi.paths _ h1 hne).2 _ (List.mem_of_getElem? g1'))
    · rcases look hk' with ⟨h2, h2'⟩ | ⟨j', m₀', g1', g2', g3'⟩
      · subst g2
        exact absurd he.symm ((hi.paths _ h2 (by rw [← he]; exact hne)).2 _ (List.mem_of_getElem? g1))
      · subst g2; subst g2'
        have hid := h'.ok.inj _ _ _ _ _ _ (L' g1) (L' g1') hne he
        have hid : m₀.id = m₀'.id := hid
        have : j = j' := by
          have hn := h'.ids
          have hj : j < cs'.length := by
            rcases Nat.lt_or_ge j cs'.length with h | h
            · exact h
            · rw [List.getElem?_eq_none h] at g1; cases g1
          refine (List.getElem?_inj (l := cs'.map (·.1.id)) (by rw [List.length_map]; exact hj) hn (j := j')).1 ?_
          rw [List.getElem?_map, List.getElem?_map, g1, g1']
          simp only [Option.map_some]
          rw [hid]
        subst this
        omega

theorem importLib_ok (hC : C.Ok) {lib : Lib} {fs : FS} {cs cs' : List (Meta × Arr)} (h : LInv C S Z lib fs cs) {dir' : Nat} (hsv : Saved C fs dir' cs')
    (hi : ImpOk C fs lib.idx.dir dir' lib.idx.nextId cs cs') (move : Bool) :
    ∃ lib' fs', lib.import C S fs dir' move = .ok (lib', fs') ∧ LInv C S Z lib' fs' (cs ++ numbered lib.idx.nextId cs') ∧
      lib'.idx.nextId = lib.idx.nextId + cs'.length ∧ lib'.idx.dir = lib.idx.dir ∧ (move = false → Saved C fs' dir' cs') ∧
      (move = true → ∀ n, fs' (dir', n) = none) ∧ (∀ p, p.1 ≠ lib.idx.dir → p.1 ≠ dir' → fs' p = fs p) ∧ (∀ n, fs' (dir', n) ≠ none → fs (dir', n) ≠ none) ∧
      (∀ n, fs' (lib.idx.dir, .chunk n) ≠ none → fs (dir', .chunk n) ≠ none ∨ fs (lib.idx.dir, .chunk n) ≠ none) := by
  have hch := import_chunky h.chunky hsv.chunky hi
  have hsm := hi.small
  obtain ⟨s, hs⟩ := h.cache
  obtain ⟨t, e1, e2⟩ := IdxInv.insertAll_ok (x := { lib.idx with valid := false, nextId := lib.idx.nextId + cs'.length }) hC
    ((numbered lib.idx.nextId cs').map Prod.fst) (h.idx.congr rfl rfl) (fun m hm => by
      obtain ⟨c, hc, rfl⟩ := List.mem_map.1 hm
      exact (hch.placed c (by simp [hc])).isBox)
  let fs1 : FS := if move then fs.set (dir', .index) none else fs
  let fs2 : FS := if move then moveFiles dir' lib.cc.dir fs1 else copyFiles dir' lib.cc.dir fs1
  have hne' : dir' ≠ lib.cc.dir := by rw [h.dir]; exact hi.ne
  have hfs1 : ∀ d n, fs1 (d, .chunk n) = fs (d, .chunk n) := by
    intro d n
    show (if move then fs.set (dir', .index) none else fs) (d, .chunk n) = _
    cases move
    · rfl
    · exact set_index_chunk _ _ _ _ _
  have hdst : ∀ n, fs2 (lib.cc.dir, .chunk n) = match fs (dir', .chunk n) with | some f => some f | none => fs (lib.cc.dir, .chunk n) := by
    intro n
    show (if move then moveFiles dir' lib.cc.dir fs1 else copyFiles dir' lib.cc.dir fs1) (lib.cc.dir, .chunk n) = _
    cases move
    · show copyFiles dir' lib.cc.dir fs1 (lib.cc.dir, .chunk n) = _
      simp only [copyFiles, if_true]
      rw [hfs1, hfs1]; rfl
    · show moveFiles dir' lib.cc.dir fs1 (lib.cc.dir, .chunk n) = _
      simp only [moveFiles, if_true]
      rw [hfs1, hfs1]; rfl
  have hold : ∀ m a, (m, a) ∈ cs → m.ctype = .specified → fs2 (absPath lib.cc.dir m) = fs (absPath lib.cc.dir m) := by
    intro m a hc hsp
    have hp := h.chunky.ok.spec _ _ _ (chunksOf_of_mem h.chunky.ids hc) hsp
    have := (hi.paths _ hc hp).1
    unfold absPath
    rw [hdst, this]
  refine ⟨⟨lib.cc, { lib.idx with valid := false, nextId := lib.idx.nextId + cs'.length, tree := t, heap := lib.idx.heap ++ (numbered lib.idx.nextId cs').map Prod.fst }⟩,
    fs2, ?_, ⟨hch, ?_, h.dir, ⟨s, hs.rel, fun k e he => ?_, fun k m a hk hn => ?_⟩, metaValid_false rfl⟩, rfl, rfl, fun hm => ⟨hsv.chunky, ?_, fun k m a hk => ?_⟩, ?_, ?_, ?_, ?_⟩
  · unfold Lib.import Index.import
    rw [load_ok hsv.chunky (by omega) hsv.index]
    simp only [Res.ok_bind]
    rw [renumber_ok hsm]
    simp only
    rw [e1]; rfl
  · rw [List.map_append]; exact e2
  · obtain ⟨m, a, g1, g2⟩ := hs.cached k e he
    obtain ⟨g3, g4⟩ := chunksOf_mem g1
    refine ⟨m, a, ?_, g2.frame (hold m a g3)⟩
    rw [← g4]
    exact chunksOf_of_mem hch.ids (v := (m, a)) (by simp [g3])
  · obtain ⟨g3, g4⟩ := chunksOf_mem hk
    rcases List.mem_append.1 g3 with g3 | g3
    · refine (hs.disk k m a ?_ hn).frame (hold m a g3)
      rw [← g4]; exact chunksOf_of_mem h.chunky.ids (v := (m, a)) g3
    · obtain ⟨j, c₀, f1, f2⟩ := numbered_mem g3
      cases f2
      intro hsp
      obtain ⟨f, a1, a2⟩ := hsv.disk _ c₀.1 c₀.2 (chunksOf_of_mem hsv.chunky.ids (List.mem_of_getElem? f1)) hsp
      refine ⟨f, ?_, a2⟩
      have a1 : fs (dir', .chunk c₀.1.path) = some f := a1
      show fs2 (lib.cc.dir, .chunk c₀.1.path) = _
      rw [hdst, a1]
  · subst hm
    exact hsv.index
  · subst hm
    refine (hsv.disk k m a hk).frame fun _ => ?_
    show copyFiles dir' lib.cc.dir fs (dir', .chunk m.path) = _
    simp only [copyFiles]
    rw [if_neg hne']; rfl
  · intro hm n
    subst hm
    cases n with
    | index => show fs.set (dir', .index) none (dir', .index) = none; exact set_index_self _ _ _
    | chunk n =>
      show moveFiles dir' lib.cc.dir fs1 (dir', .chunk n) = none
      simp only [moveFiles]
      rw [if_neg hne']; simp
  · rintro ⟨d, n⟩ h0 h2
    have h1 : d ≠ lib.cc.dir := by rw [h.dir]; exact h0
    have h2 : d ≠ dir' := h2
    cases move
    · cases n with
      | index => rfl
      | chunk n => show copyFiles dir' lib.cc.dir fs (d, .chunk n) = _; simp only [copyFiles]; rw [if_neg h1]
    · cases n with
      | index =>
        show fs.set (dir', .index) none (d, .index) = _
        unfold FS.set; rw [if_neg (fun e => h2 (Prod.ext_iff.1 e).1)]
      | chunk n =>
        show moveFiles dir' lib.cc.dir fs1 (d, .chunk n) = _
        simp only [moveFiles]; rw [if_neg h1, if_neg h2]; exact hfs1 _ _
  · intro n hn
    cases move
    · cases n with
      | index => exact hn
      | chunk n =>
        have hn : copyFiles dir' lib.cc.dir fs (dir', .chunk n) ≠ none := hn
        simp only [copyFiles] at hn
        rwa [if_neg hne'] at hn
    · exfalso
      cases n with
      | index => exact hn (set_index_self _ _ _)
      | chunk n =>
        apply hn
        show moveFiles dir' lib.cc.dir fs1 (dir', .chunk n) = none
        simp only [moveFiles]
        rw [if_neg hne']; simp
  · intro n hn
    rw [← h.dir] at hn ⊢
    have hn : fs2 (lib.cc.dir, .chunk n) ≠ none := hn
    rw [hdst] at hn
    cases hf : fs (dir', .chunk n) with
    | none => rw [hf] at hn; exact Or.inr hn
    | some f => left; simp

end Verif.Dist
