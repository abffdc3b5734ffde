import Verif.Dist.IdxInv
import Verif.Dist.CacheOps
/-
The chunk library: what it stands for (a list of chunks with metadata and contents), and the effect of its operations.
-/
namespace Verif.Dist
open Verif Verif.ND Verif.Tree Verif.Bytes

variable {C : Cfg} {S : Sorter} {Z : SlabSize}

/-! ### Chunks by identifier -/

/-- The chunks, by identifier. -/
def chunksOf (cs : List (Meta × Arr)) : Chunks := fun k => cs.find? fun c => decide (c.1.id = k)

theorem chunksOf_mem {cs : List (Meta × Arr)} {k : Nat} {v : Meta × Arr} (h : chunksOf cs k = some v) : v ∈ cs ∧ v.1.id = k :=
  ⟨List.mem_of_find?_eq_some h, by simpa using List.find?_some h⟩

theorem chunksOf_of_mem : ∀ {cs : List (Meta × Arr)} (_ : (cs.map (·.1.id)).Nodup) {v : Meta × Arr} (_ : v ∈ cs), chunksOf cs v.1.id = some v
  | [], _, v, h => by cases h
  | c :: cs, hn, v, h => by
      simp only [List.map_cons, List.nodup_cons] at hn
      unfold chunksOf
      rw [List.find?_cons]
      by_cases hc : c.1.id = v.1.id
      · simp only [hc, decide_true]
        rcases List.mem_cons.1 h with rfl | h
        · rfl
        · exact absurd (List.mem_map.2 ⟨v, h, hc.symm⟩) hn.1
      · simp only [hc, decide_false]
        rcases List.mem_cons.1 h with rfl | h
        · exact absurd rfl hc
        · exact chunksOf_of_mem hn.2 h

theorem chunksOf_none {cs : List (Meta × Arr)} {k : Nat} (h : k ∉ cs.map (·.1.id)) : chunksOf cs k = none := by
  cases e : chunksOf cs k with
  | none => rfl
  | some v => obtain ⟨h1, h2⟩ := chunksOf_mem e; exact absurd (List.mem_map.2 ⟨v, h1, h2⟩) h

theorem chunksOf_snoc {cs : List (Meta × Arr)} {c : Meta × Arr} (h : c.1.id ∉ cs.map (·.1.id)) :
    chunksOf (cs ++ [c]) = (chunksOf cs).put c.1.id (some c) := by
  funext k
  by_cases hk : k = c.1.id
  · subst hk
    rw [Chunks.put_self]
    have := chunksOf_none h
    unfold chunksOf at this ⊢
    rw [List.find?_append, this]
    simp
  · rw [Chunks.put_ne _ _ hk]
    unfold chunksOf
    rw [List.find?_append]
    have : ¬ c.1.id = k := fun e => hk e.symm
    simp [this]

theorem map_id_set {cs : List (Meta × Arr)} {i : Nat} {c c' : Meta × Arr} (hc : cs[i]? = some c) (hid : c'.1.id = c.1.id) :
    (cs.set i c').map (·.1.id) = cs.map (·.1.id) := by
  apply List.ext_getElem?
  intro j
  rw [List.getElem?_map, List.getElem?_map, List.getElem?_set]
  by_cases hj : i = j
  · subst hj
    have : i < cs.length := by
      rcases Nat.lt_or_ge i cs.length with h | h
      · exact h
      · rw [List.getElem?_eq_none h] at hc; cases hc
    simp [this, hc, hid]
    rw [List.getElem?_eq_getElem this] at hc
    cases hc; rfl
  · simp [hj]

theorem chunksOf_set {cs : List (Meta × Arr)} (hn : (cs.map (·.1.id)).Nodup) {i : Nat} {c c' : Meta × Arr} (hc : cs[i]? = some c)
    (hid : c'.1.id = c.1.id) : chunksOf (cs.set i c') = (chunksOf cs).put c.1.id (some c') := by
  have hn' : ((cs.set i c').map (·.1.id)).Nodup := by rw [map_id_set hc hid]; exact hn
  have hi : i < cs.length := by
    rcases Nat.lt_or_ge i cs.length with h | h
    · exact h
    · rw [List.getElem?_eq_none h] at hc; cases hc
  funext k
  by_cases hk : k = c.1.id
  · subst hk
    rw [Chunks.put_self, ← hid]
    exact chunksOf_of_mem hn' (List.mem_set hi c')
  · rw [Chunks.put_ne _ _ hk]
    cases e : chunksOf cs k with
    | none =>
      refine chunksOf_none fun hm => ?_
      rw [map_id_set hc hid] at hm
      obtain ⟨v, h1, h2⟩ := List.mem_map.1 hm
      have := chunksOf_of_mem hn h1
      rw [h2, e] at this; cases this
    | some v =>
      obtain ⟨h1, h2⟩ := chunksOf_mem e
      obtain ⟨j, hj⟩ := List.getElem?_of_mem h1
      have hij : i ≠ j := by
        intro e; subst e
        rw [hc] at hj; cases hj
        exact hk h2.symm
      have : v ∈ cs.set i c' := by
        apply List.mem_of_getElem? (i := j)
        rw [List.getElem?_set]; simp [hij, hj]
      rw [← h2]
      exact chunksOf_of_mem hn' this

/-! ### Placement -/

/-- The padding of the array of a chunk as it is read from the files: a chunk that is known to hold only zeros is created without padding
    (DistributedNDVecArray.hxx 287). -/
def padOf (m : Meta) : Nat := if m.ctype = .all_null then 0 else m.overlap

theorem padOf_spec {m : Meta} (h : m.ctype = .specified) : padOf m = m.overlap := by unfold padOf; rw [h]; rfl

theorem padOf_of {m : Meta} (h : m.ctype = .all_null → m.overlap = 0) : padOf m = m.overlap := by
  unfold padOf
  split
  · rename_i hc; exact (h hc).symm
  · rfl

theorem padOf_zero {m : Meta} (h : m.overlap = 0) : padOf m = 0 := by rw [padOf_of fun _ => h, h]

theorem padOf_le (m : Meta) : padOf m ≤ m.overlap := by unfold padOf; split <;> omega

/-- The metadata of a chunk agree with each other and with the shape of its array; no number overflows. -/
structure Placed (C : Cfg) (m : Meta) (a : Arr) : Prop where
  startLen : m.start.length = C.dims
  shapeLen : m.shape.length = C.dims
  pos : ∀ d < C.dims, 0 < m.shape.getD d 0
  stop : m.stop = addVec m.start m.shape
  lt : ∀ d < C.dims, m.stop.getD d 0 < 2 ^ 62
  ovl : m.overlap < 2 ^ 61
  offset : m.offset = vsubS m.start m.overlap
  arr : a.shape = m.shape.map (· + 2 * padOf m)
  id : m.id < 2 ^ 64
  path : m.path.length < 2 ^ 64

theorem Placed.stopLen {m : Meta} {a : Arr} (h : Placed C m a) : m.stop.length = C.dims := by
  rw [h.stop]; simp [addVec, h.startLen, h.shapeLen]

theorem Placed.getD_stop {m : Meta} {a : Arr} (h : Placed C m a) (d : Nat) : m.stop.getD d 0 = m.start.getD d 0 + m.shape.getD d 0 := by
  rw [h.stop, getD_addVec (by rw [h.startLen, h.shapeLen])]

theorem Placed.isBox {m : Meta} {a : Arr} (h : Placed C m a) : IsBox C.dims m.start m.stop :=
  ⟨h.startLen, h.stopLen, fun i hi => by have := h.getD_stop i; have := h.lt i hi; omega⟩

theorem Placed.getD_arr {m : Meta} {a : Arr} (h : Placed C m a) {d : Nat} (hd : d < C.dims) : a.shape.getD d 0 = m.shape.getD d 0 + 2 * padOf m := by
  have hl := h.shapeLen
  rw [h.arr, List.getD_eq_getElem?_getD, List.getD_eq_getElem?_getD, List.getElem?_map, List.getElem?_eq_getElem (by omega)]
  rfl

theorem Placed.arrLen {m : Meta} {a : Arr} (h : Placed C m a) : a.shape.length = C.dims := by rw [h.arr]; simp [h.shapeLen]

theorem ext_getD {a b : List Nat} (hl : a.length = b.length) (h : ∀ d < a.length, a.getD d 0 = b.getD d 0) : a = b := by
  apply List.ext_getElem hl
  intro i h1 h2
  have := h i h1
  rwa [List.getD_eq_getElem?_getD, List.getD_eq_getElem?_getD, List.getElem?_eq_getElem h1, List.getElem?_eq_getElem h2] at this

/-- The position inside the array of the chunk of a global index. -/
def localInd (m : Meta) (i : List Nat) : List Nat := (subVec i m.start).map (· + padOf m)

theorem getD_localInd {m : Meta} {i : List Nat} (hl : i.length = m.start.length) {d : Nat} (hd : d < i.length) :
    (localInd m i).getD d 0 = i.getD d 0 - m.start.getD d 0 + padOf m := by
  unfold localInd
  have h2 : d < (subVec i m.start).length := by rw [length_subVec hl]; exact hd
  have h3 := getD_subVec hl d
  rw [List.getD_eq_getElem?_getD, List.getElem?_eq_getElem h2] at h3
  simp only [Option.getD_some] at h3
  rw [List.getD_eq_getElem?_getD, List.getElem?_map, List.getElem?_eq_getElem h2]
  simp only [Option.map_some, Option.getD_some]
  rw [h3]

theorem length_localInd {m : Meta} {i : List Nat} (hl : i.length = m.start.length) : (localInd m i).length = i.length := by
  unfold localInd; rw [List.length_map, length_subVec hl]

theorem wsub_wsub {x s o : Nat} (hs : s < 2 ^ 62) (hx : x < 2 ^ 62) (ho : o < 2 ^ 61) (h : s ≤ x) : wsub x (wsub s o) = x - s + o := by
  unfold wsub
  rw [show U64 = 18446744073709551616 from rfl]
  omega

/-- The wrapping arithmetic of the code computes the position. -/
theorem vsub_offset {m : Meta} {a : Arr} (h : Placed C m a) (hn : m.ctype = .all_null → m.overlap = 0) {i : List Nat} (hl : i.length = C.dims)
    (hi : ∀ d < C.dims, m.start.getD d 0 ≤ i.getD d 0 ∧ i.getD d 0 ≤ m.stop.getD d 0) : vsub i m.offset = localInd m i := by
  have hol : m.offset.length = C.dims := by rw [h.offset]; simp [vsubS, h.startLen]
  have hls : i.length = m.start.length := by rw [hl, h.startLen]
  apply ext_getD
  · rw [length_localInd hls]; simp [vsub, hl, hol]
  · intro d hd
    have hd : d < C.dims := by simpa [vsub, hl, hol] using hd
    rw [getD_localInd hls (by omega)]
    have e1 : (vsub i m.offset).getD d 0 = wsub (i.getD d 0) (m.offset.getD d 0) := getD_zipWith (by omega) (by omega)
    have e2 : m.offset.getD d 0 = wsub (m.start.getD d 0) m.overlap := by
      rw [h.offset]
      have := h.startLen
      unfold vsubS
      rw [List.getD_eq_getElem?_getD, List.getD_eq_getElem?_getD, List.getElem?_map, List.getElem?_eq_getElem (by omega)]
      rfl
    have := hi d hd
    have := h.lt d hd
    rw [e1, e2, wsub_wsub (by omega) (by omega) h.ovl (by omega), padOf_of hn]

theorem valid_local {m : Meta} {a : Arr} (h : Placed C m a) {i : List Nat} (hi : InBox m.start m.stop i) : ValidInd a.shape (localInd m i) := by
  have hl : i.length = C.dims := by rw [hi.1, h.startLen]
  refine ⟨by rw [length_localInd hi.1, h.arrLen, hl], fun d hd => ?_⟩
  rw [h.arrLen] at hd
  rw [getD_localInd hi.1 (by omega), h.getD_arr hd]
  have := hi.2.2 d (by omega)
  have := h.getD_stop d
  omega

/-! ### The invariant -/

/-- The cached shape, if valid, is the one that would be computed. -/
def MetaValid (C : Cfg) (x : Index) : Prop :=
  x.valid = true → ∃ y, x.calc C = .ok y ∧ y.start = x.start ∧ y.stop = x.stop ∧ y.shape = x.shape

/-- The chunks do not overlap. -/
def Disj (cs : List (Meta × Arr)) : Prop := cs.Pairwise fun c c' => DisjointBox c.1.start c.1.stop c'.1.start c'.1.stop

/-- The part of the invariant that does not mention the state of the program: a well-formed list of chunks. -/
structure Chunky (C : Cfg) (cs : List (Meta × Arr)) : Prop where
  placed : ∀ c ∈ cs, Placed C c.1 c.2
  disj : Disj cs
  ids : (cs.map (·.1.id)).Nodup
  ok : (chunksOf cs).Ok C

/-- The library with its files stands for the chunks `cs`. -/
structure LInv (C : Cfg) (S : Sorter) (Z : SlabSize) (lib : Lib) (fs : FS) (cs : List (Meta × Arr)) : Prop where
  chunky : Chunky C cs
  idx : IdxInv C S Z lib.idx (cs.map Prod.fst)
  dir : lib.cc.dir = lib.idx.dir
  cache : ∃ s, CInv C (chunksOf cs) lib.cc fs s
  valid : MetaValid C lib.idx

theorem DisjointBox.symm {b e b' e' : List Nat} (h : DisjointBox b e b' e') : DisjointBox b' e' b e := fun i hi => h i ⟨hi.2, hi.1⟩

theorem Disj.of_ne {cs : List (Meta × Arr)} (h : Disj cs) {i j : Nat} {c c' : Meta × Arr} (hi : cs[i]? = some c) (hj : cs[j]? = some c') (hij : i ≠ j) :
    DisjointBox c.1.start c.1.stop c'.1.start c'.1.stop := by
  have hil : i < cs.length := by
    rcases Nat.lt_or_ge i cs.length with h | h
    · exact h
    · rw [List.getElem?_eq_none h] at hi; cases hi
  have hjl : j < cs.length := by
    rcases Nat.lt_or_ge j cs.length with h | h
    · exact h
    · rw [List.getElem?_eq_none h] at hj; cases hj
  rw [List.getElem?_eq_getElem hil] at hi
  rw [List.getElem?_eq_getElem hjl] at hj
  cases hi; cases hj
  unfold Disj at h
  rw [List.pairwise_iff_getElem] at h
  rcases Nat.lt_or_gt_of_ne hij with h' | h'
  · exact h i j hil hjl h'
  · exact DisjointBox.symm (h j i hjl hil h')

theorem Chunky.onlyAt {cs : List (Meta × Arr)} (h : Chunky C cs) {i : Nat} {c : Meta × Arr} (hi : cs[i]? = some c) {p : List Nat}
    (hp : InBox c.1.start c.1.stop p) : OnlyAt (cs.map Prod.fst) p i := by
  refine ⟨⟨c.1, by rw [List.getElem?_map, hi]; rfl, hp⟩, fun j m hj hin => ?_⟩
  rw [List.getElem?_map] at hj
  cases e : cs[j]? with
  | none => rw [e] at hj; cases hj
  | some c' =>
    rw [e] at hj
    simp only [Option.map_some, Option.some.injEq] at hj
    subst hj
    by_cases hij : j = i
    · exact hij
    · exact absurd ⟨hin, hp⟩ (h.disj.of_ne e hi hij p)

theorem Placed.point {m : Meta} {a : Arr} (h : Placed C m a) {p : List Nat} (hp : InBox m.start m.stop p) : IsPoint C.dims p := by
  refine ⟨by rw [hp.1, h.startLen], fun x hx => ?_⟩
  obtain ⟨d, hd, rfl⟩ := List.getElem_of_mem hx
  have h1 := hp.2.2 d hd
  have hpl := hp.1
  have h2 := h.lt d (by rw [← h.startLen]; omega)
  rw [List.getD_eq_getElem?_getD (l := p), List.getElem?_eq_getElem hd, Option.getD_some] at h1
  omega

/-! ### Opening -/

theorem metaValid_false {x : Index} (h : x.valid = false) : MetaValid C x := fun h' => by rw [h] at h'; cases h'

theorem cinv_of_disk {M : Chunks} {fs : FS} {dir : Nat} (hd : ∀ k m a, M k = some (m, a) → OnDisk C dir fs m a) (init : List Nat) :
    ∃ cc, CC.construct C dir init = .ok cc ∧ cc.dir = dir ∧ CInv C M cc fs [] := by
  obtain ⟨c, h1, h2⟩ := Cache.CRel.construct (max 1 C.size) (by omega)
    (⟨defaultMeta C.dims, ⟨init, (List.range (volume C.vd init)).map C.junk⟩, .nothing⟩ : Entry) 0
  refine ⟨⟨dir, c⟩, by unfold CC.construct; rw [h1]; rfl, rfl, h2, fun k e h => (by cases h), fun k m a hk _ => hd k m a hk⟩

/-- A record that can be stored in the index file and read back. -/
theorem meta_roundtrip (h : Host) {m : Meta} {a : Arr} (hp : Placed C m a) : RoundTrips (metaCodec h C.dims) m := by
  intro rest
  have hct : m.ctype.toNat < 2 ^ 64 := by cases m.ctype <;> decide
  have r1 := (C10_u64 h _ hct).2.1
  have r2 := C11_string h m.path hp.path
  have r3 := (C10_u64 h _ hp.id).2.1
  have r4 : RoundTrips (array C.dims (u64 h)) m.start := C11_array _ _ _ hp.startLen fun x hx => by
    obtain ⟨d, hd, rfl⟩ := List.getElem_of_mem hx
    refine (C10_u64 h _ ?_).2.1
    have h1 := hp.lt d (by rw [← hp.startLen]; exact hd)
    have h2 := hp.getD_stop d
    rw [List.getD_eq_getElem?_getD (l := m.start), List.getElem?_eq_getElem hd, Option.getD_some] at h2
    omega
  have r5 : RoundTrips (array C.dims (u64 h)) m.shape := C11_array _ _ _ hp.shapeLen fun x hx => by
    obtain ⟨d, hd, rfl⟩ := List.getElem_of_mem hx
    refine (C10_u64 h _ ?_).2.1
    have h1 := hp.lt d (by rw [← hp.shapeLen]; exact hd)
    have h2 := hp.getD_stop d
    rw [List.getD_eq_getElem?_getD (l := m.shape), List.getElem?_eq_getElem hd, Option.getD_some] at h2
    omega
  have r6 := (C10_u64 h m.overlap (by have := hp.ovl; omega)).2.1
  have hct' : ctypeOf m.ctype.toNat = .ok m.ctype := by cases m.ctype <;> rfl
  have hst : vadd m.start m.shape = m.stop := by
    rw [hp.stop, vadd_eq (by rw [hp.startLen, hp.shapeLen])]
    intro d hd
    have h1 := hp.lt d (by rw [← hp.startLen]; exact hd)
    have h2 := hp.getD_stop d
    have hU : U64 = 2 ^ 64 := rfl
    omega
  simp only [metaCodec, List.append_assoc]
  rw [r1]; simp only [Res.ok_bind, hct']
  rw [r2]; simp only [Res.ok_bind]
  rw [r3]; simp only [Res.ok_bind]
  rw [r4]; simp only [Res.ok_bind]
  rw [r5]; simp only [Res.ok_bind]
  rw [r6]; simp only [Res.ok_bind]
  congr 2
  unfold mkMeta
  rw [hst, ← hp.offset]

/-- The index file written for the chunks `cs`. -/
def indexFile (C : Cfg) (ms : List Meta) : List Nat := (vector C.hst (metaCodec C.hst C.dims)).ser ms

theorem load_ok {cs : List (Meta × Arr)} (h : Chunky C cs) (hn : cs.length < 2 ^ 64) {fs : FS} {dir : Nat}
    (hf : fs (dir, .index) = some (indexFile C (cs.map Prod.fst))) : loadEntries C fs dir = .ok (cs.map Prod.fst) := by
  unfold loadEntries
  rw [hf]
  have := C11_vector C.hst (metaCodec C.hst C.dims) (cs.map Prod.fst) (by rw [List.length_map]; exact hn) (fun m hm => by
    obtain ⟨c, hc, rfl⟩ := List.mem_map.1 hm
    exact meta_roundtrip C.hst (h.placed c hc)) []
  rw [List.append_nil] at this
  unfold indexFile
  simp only [this, Res.ok_bind]

theorem open_ok (hC : C.Ok) {cs : List (Meta × Arr)} (h : Chunky C cs) (hn : cs.length < 2 ^ 64) {fs : FS} {dir : Nat}
    (hf : fs (dir, .index) = some (indexFile C (cs.map Prod.fst)))
    (hd : ∀ k m a, chunksOf cs k = some (m, a) → OnDisk C dir fs m a) (init : List Nat) :
    ∃ lib, Lib.open C S fs dir init = .ok lib ∧ lib.idx.dir = dir ∧ lib.idx.nextId = 0 ∧ LInv C S Z lib fs cs := by
  obtain ⟨t, e1, e2⟩ := (IdxInv.empty (C := C) (S := S) (Z := Z) dir).insertAll_ok hC (cs.map Prod.fst) (fun m hm => by
    obtain ⟨c, hc, rfl⟩ := List.mem_map.1 hm
    exact (h.placed c hc).isBox)
  obtain ⟨cc, e3, e4, e5⟩ := cinv_of_disk hd init
  refine ⟨⟨cc, { Index.empty C dir with tree := t, heap := (Index.empty C dir).heap ++ cs.map Prod.fst }⟩, ?_, rfl, rfl, h, ?_, e4, ⟨[], e5⟩, metaValid_false rfl⟩
  · unfold Lib.open Index.open
    rw [hf]
    simp only [load_ok h hn hf, Res.ok_bind]
    rw [e1]
    simp only [Res.ok_bind]
    rw [e3]; rfl
  · simpa using e2

theorem open_new {fs : FS} {dir : Nat} (hf : fs (dir, .index) = none) (init : List Nat) :
    ∃ lib, Lib.open C S fs dir init = .ok lib ∧ lib.idx.dir = dir ∧ lib.idx.nextId = 0 ∧ LInv C S Z lib fs [] := by
  obtain ⟨cc, e3, e4, e5⟩ := cinv_of_disk (C := C) (M := chunksOf []) (fs := fs) (dir := dir) (fun k m a h => by cases h) init
  refine ⟨⟨cc, Index.empty C dir⟩, ?_, rfl, rfl, ⟨fun c h => (by cases h), .nil, .nil, ?_⟩, IdxInv.empty dir, e4, ⟨[], e5⟩, metaValid_false rfl⟩
  · unfold Lib.open Index.open
    rw [hf]
    simp only [Res.ok_bind]
    rw [e3]; rfl
  · exact ⟨fun k m a h => (by cases h), fun k m a h => (by cases h), fun k m a h => (by cases h), fun k m a h => (by cases h), fun k m a _ _ _ h => (by cases h)⟩

end Verif.Dist
