import Verif.Dist.LibInv
import Verif.Array.Props3
/-
The effect of the operations of the chunk library on the chunks it stands for.
-/
namespace Verif.Dist
open Verif Verif.ND Verif.Tree Verif.Bytes Verif.Stream Verif.NullSup

variable {C : Cfg} {S : Sorter} {Z : SlabSize}

/-! ### RegisterChunk -/

/-- The array holds only zeros. -/
def Arr.null (a : Arr) : Bool := a.buf.all floatNull

theorem floatNull_iff {w : Nat} : floatNull w = true ↔ FloatIsZero w := by
  unfold floatNull FloatIsZero; simp

theorem isAllNull_ok (hC : C.Ok) {a : Arr} (h : a.Ok C) : isAllNull C.vd (a.hdr C.vd) a.buf floatNull = .ok a.null := by
  have hd : 0 < (a.hdr C.vd).shape.length := by show 0 < a.shape.length; rw [h.fit.len]; exact hC.dims
  obtain ⟨b, e1, e2⟩ := C09_is_all_null C.vd a.shape _ (a.hdr C.vd) h.small ViewOf.own a.buf h.len hd floatNull
  rw [e1]
  congr 1
  rw [Bool.eq_iff_iff, e2]
  unfold Arr.null
  rw [List.all_eq_true]
  constructor
  · intro hz
    refine pred_of_elems hC.vd h.len fun i hi => ?_
    obtain ⟨v, hv, _⟩ := h.get hC hi
    exact ⟨v, hv, hz i v hi hv⟩
  · intro hz i v _ hv x hx
    exact hz x (get_subset (show a.get C.vd i = .ok v from hv) x hx)

theorem zeros_ok {sh : List Nat} (h : Fit C sh) : (zeros C.vd sh).Ok C :=
  ⟨h, by simp [zeros], fun w hw => by unfold zeros at hw; simp only [List.mem_replicate] at hw; omega⟩

theorem null_aeq (hC : C.Ok) {a : Arr} (h : a.Ok C) (hn : a.null = true) : AEq C.vd (zeros C.vd a.shape) a := by
  refine ⟨rfl, fun i hi => ?_⟩
  have hz : (zeros C.vd a.shape).Ok C := zeros_ok h.fit
  obtain ⟨v, h1, h2, _⟩ := hz.get hC (i := i) hi
  obtain ⟨w, k1, k2, _⟩ := h.get hC hi
  refine ⟨v, w, h1, k1, Or.inr ⟨by omega, fun x hx => ?_, fun x hx => ?_⟩⟩
  · have := get_subset h1 x hx
    unfold zeros at this
    simp only [List.mem_replicate] at this
    rw [this.2]; exact Or.inl rfl
  · unfold Arr.null at hn
    rw [List.all_eq_true] at hn
    exact floatNull_iff.1 (hn x (get_subset k1 x hx))

theorem Chunky.snoc (hcs : Chunky C cs) {m : Meta} {a : Arr} (hp : Placed C m a) (ha : a.Ok C)
    (hd : ∀ c ∈ cs, DisjointBox c.1.start c.1.stop m.start m.stop) (hid : m.id ∉ cs.map (·.1.id))
    (hsp : m.ctype = .specified → m.path ≠ [] ∧ ∀ c ∈ cs, c.1.path ≠ m.path) (hnu : m.ctype = .all_null → m.path = [] ∧ AEq C.vd (zeros C.vd m.shape) a) :
    Chunky C (cs ++ [(m, a)]) := by
  have hne : m.path ≠ [] → ∀ c ∈ cs, c.1.path ≠ m.path := by
    intro h
    cases hct : m.ctype with
    | specified => exact (hsp hct).2
    | all_null => exact absurd (hnu hct).1 h
  refine ⟨?_, ?_, ?_, ?_⟩
  · intro c hc
    rcases List.mem_append.1 hc with hc | hc
    · exact hcs.placed c hc
    · simp only [List.mem_singleton] at hc; subst hc; exact hp
  · unfold Disj
    rw [List.pairwise_append]
    exact ⟨hcs.disj, List.pairwise_singleton _ _, fun c hc c' hc' => by simp only [List.mem_singleton] at hc'; subst hc'; exact hd c hc⟩
  · rw [List.map_append, List.nodup_append]
    refine ⟨hcs.ids, by simp, fun x hx y hy => ?_⟩
    simp only [List.map_cons, List.map_nil, List.mem_singleton] at hy
    subst hy
    intro e; subst e; exact hid hx
  · rw [chunksOf_snoc (c := (m, a)) hid]
    have key : ∀ k m' a', (chunksOf cs).put m.id (some (m, a)) k = some (m', a') → (k = m.id ∧ m' = m ∧ a' = a) ∨ (k ≠ m.id ∧ chunksOf cs k = some (m', a')) := by
      intro k m' a' h
      unfold Chunks.put at h
      split at h
      · cases h; exact Or.inl ⟨by assumption, rfl, rfl⟩
      · exact Or.inr ⟨by assumption, h⟩
    refine ⟨fun k m' a' h => ?_, fun k m' a' h => ?_, fun k m' a' h => ?_, fun k m' a' h => ?_, fun k m' a' k' m'' a'' h h' => ?_⟩
    · rcases key _ _ _ h with ⟨rfl, rfl, rfl⟩ | ⟨_, h⟩
      · rfl
      · exact hcs.ok.id _ _ _ h
    · rcases key _ _ _ h with ⟨rfl, rfl, rfl⟩ | ⟨_, h⟩
      · exact ha
      · exact hcs.ok.arr _ _ _ h
    · rcases key _ _ _ h with ⟨rfl, rfl, rfl⟩ | ⟨_, h⟩
      · exact fun hs => (hsp hs).1
      · exact hcs.ok.spec _ _ _ h
    · rcases key _ _ _ h with ⟨rfl, rfl, rfl⟩ | ⟨_, h⟩
      · exact hnu
      · exact hcs.ok.null _ _ _ h
    · intro h1 h2
      rcases key _ _ _ h with ⟨g1, g2, g3⟩ | ⟨_, g⟩
      · rcases key _ _ _ h' with ⟨g1', g2', g3'⟩ | ⟨_, g'⟩
        · rw [g1, g1']
        · subst g2; exact absurd h2.symm (hne h1 (m'', a'') (chunksOf_mem g').1)
      · rcases key _ _ _ h' with ⟨g1', g2', g3'⟩ | ⟨_, g'⟩
        · subst g2'; exact absurd h2 (hne (by rw [← h2]; exact h1) (m', a') (chunksOf_mem g).1)
        · exact hcs.ok.inj _ _ _ _ _ _ g g' h1 h2

/-- Conditions for registering the chunk `a` at `[start, stop)`. -/
structure RegOk (C : Cfg) (cs : List (Meta × Arr)) (uuid : List Nat) (a : Arr) (start stop : List Nat) (overlap : Nat) (opt : Bool) : Prop where
  arr : a.Ok C
  startLen : start.length = C.dims
  stopLen : stop.length = C.dims
  lt : ∀ d < C.dims, start.getD d 0 < stop.getD d 0 ∧ stop.getD d 0 < 2 ^ 62
  ovl : overlap < 2 ^ 61
  shape : a.shape = (subVec stop start).map (· + 2 * overlap)
  disj : ∀ c ∈ cs, DisjointBox c.1.start c.1.stop start stop
  uuid : uuid ≠ [] ∧ uuid.length < 2 ^ 64 ∧ ∀ c ∈ cs, c.1.path ≠ uuid
  pad : opt = true → a.null = true → overlap = 0 ∨ (C.size = 0 ∧ Fit C (subVec stop start))

/-- The array that is read from the library later: a chunk that is known to hold only zeros is recreated without padding. -/
def stored (C : Cfg) (a : Arr) (start stop : List Nat) (overlap : Nat) (opt : Bool) : Arr :=
  if opt && a.null && decide (overlap ≠ 0) then zeros C.vd (subVec stop start) else a

theorem stored_spec {a : Arr} {start stop : List Nat} {overlap : Nat} {opt : Bool} (h : (opt && a.null) = false) : stored C a start stop overlap opt = a := by
  unfold stored; rw [h]; rfl

theorem stored_zero {a : Arr} {start stop : List Nat} {opt : Bool} : stored C a start stop 0 opt = a := by
  unfold stored; simp

theorem stored_null {a : Arr} {start stop : List Nat} {overlap : Nat} {opt : Bool} (h : (opt && a.null) = true) (h0 : overlap ≠ 0) :
    stored C a start stop overlap opt = zeros C.vd (subVec stop start) := by
  unfold stored; rw [h]; simp [h0]

/-- `RegisterNewChunk` without a cache of a chunk of zeros: whatever the shape of the array, the chunk stands for the array of zeros of
    the recorded shape afterwards. -/
theorem registerNull_ok (hC : C.Ok) {M : Chunks} {cc : CC} {fs : FS} {s : List (Nat × Entry)} (hM : M.Ok C) (h : CInv C M cc fs s) {m : Meta} {a : Arr}
    (ha : a.Ok C) (han : a.null = true) (hct : m.ctype = .all_null) (h0 : C.size = 0) {z : Arr} (hM' : (M.put m.id (some (m, z))).Ok C)
    (hk : m.id ∉ s.map Prod.fst) :
    ∃ cc' fs' s', registerNew C cc fs m a = .ok (cc', fs') ∧ cc'.dir = cc.dir ∧ CInv C (M.put m.id (some (m, z))) cc' fs' s' ∧
      SameBut cc.dir (M.put m.id (some (m, z))) fs fs' := by
  have hself : M.put m.id (some (m, z)) m.id = some (m, z) := Chunks.put_self _ _ _
  obtain ⟨hpath, _⟩ := hM'.null _ _ _ hself hct
  -- an auxiliary record with the shape of the array
  let m' : Meta := { m with shape := a.shape }
  have hM2 : (M.put m.id (some (m', a))).Ok C := by
    have key : ∀ {j : Nat} {mj : Meta} {aj : Arr}, M.put m.id (some (m', a)) j = some (mj, aj) → (j = m.id ∧ mj = m' ∧ aj = a) ∨
        (j ≠ m.id ∧ M.put m.id (some (m, z)) j = some (mj, aj)) := fun {j mj aj} hj => by
      by_cases e : j = m.id
      · subst e
        rw [Chunks.put_self] at hj
        simp only [Option.some.injEq, Prod.mk.injEq] at hj
        exact Or.inl ⟨rfl, hj.1.symm, hj.2.symm⟩
      · rw [Chunks.put_ne _ _ e] at hj
        exact Or.inr ⟨e, by rw [Chunks.put_ne _ _ e]; exact hj⟩
    refine ⟨fun j mj aj hj => ?_, fun j mj aj hj => ?_, fun j mj aj hj => ?_, fun j mj aj hj => ?_, fun j mj aj j' mj' aj' hj hj' => ?_⟩
    · rcases key hj with ⟨rfl, rfl, rfl⟩ | ⟨_, g⟩
      · rfl
      · exact hM'.id _ _ _ g
    · rcases key hj with ⟨rfl, rfl, rfl⟩ | ⟨_, g⟩
      · exact ha
      · exact hM'.arr _ _ _ g
    · rcases key hj with ⟨rfl, rfl, rfl⟩ | ⟨_, g⟩
      · intro hs
        have : m.ctype = .specified := hs
        rw [hct] at this; cases this
      · exact hM'.spec _ _ _ g
    · rcases key hj with ⟨rfl, rfl, rfl⟩ | ⟨_, g⟩
      · intro _; exact ⟨hpath, null_aeq hC ha han⟩
      · exact hM'.null _ _ _ g
    · intro hne he
      rcases key hj with ⟨rfl, rfl, rfl⟩ | ⟨e, g⟩
      · exact absurd hpath hne
      · rcases key hj' with ⟨rfl, rfl, rfl⟩ | ⟨e', g'⟩
        · exact absurd hpath (by rw [he] at hne; exact hne)
        · exact hM'.inj _ _ _ _ _ _ g g' hne he
  obtain ⟨cc', fs', s', e1, e2, e3, e4, e5⟩ := registerNew_ok' hC hM h (m := m) (m' := m') (a := a) rfl rfl rfl hM2 hk
  have hs' := e5 h0
  subst hs'
  refine ⟨cc', fs', [], e1, e2, ⟨e3.rel, fun k e hke => (by cases hke), fun k mk ak hk' hk2 => ?_⟩, e4.mono fun k mk ak hk' => ?_⟩
  · by_cases e : k = m.id
    · subst e
      rw [Chunks.put_self] at hk'
      simp only [Option.some.injEq, Prod.mk.injEq] at hk'
      intro hs; rw [← hk'.1, hct] at hs; cases hs
    · exact e3.disk k mk ak (by rw [Chunks.put_ne _ _ e] at hk' ⊢; exact hk') hk2
  · by_cases e : k = m.id
    · subst e
      rw [Chunks.put_self] at hk'
      simp only [Option.some.injEq, Prod.mk.injEq] at hk'
      exact ⟨m.id, m, z, hself, by rw [← hk'.1]⟩
    · exact ⟨k, mk, ak, by rw [Chunks.put_ne _ _ e] at hk' ⊢; exact hk', rfl⟩

theorem register_ok (hC : C.Ok) {lib : Lib} {fs : FS} {cs : List (Meta × Arr)} (h : LInv C S Z lib fs cs) {uuid : List Nat} {a : Arr} {start stop : List Nat}
    {overlap : Nat} {opt : Bool} (hr : RegOk C cs uuid a start stop overlap opt) (hid : lib.idx.nextId ∉ cs.map (·.1.id)) (hn : lib.idx.nextId < 2 ^ 64) :
    ∃ lib' fs' m, lib.register C S fs uuid a start stop overlap opt = .ok (lib', fs') ∧ LInv C S Z lib' fs' (cs ++ [(m, stored C a start stop overlap opt)]) ∧
      m.start = start ∧ m.stop = stop ∧ m.overlap = overlap ∧ m.ctype = (if opt && a.null then .all_null else .specified) ∧
      m.path = (if opt && a.null then [] else uuid) ∧ m.id = lib.idx.nextId ∧ lib'.idx.nextId = wadd lib.idx.nextId 1 ∧ lib'.idx.dir = lib.idx.dir ∧
      SameBut lib.idx.dir (chunksOf (cs ++ [(m, stored C a start stop overlap opt)])) fs fs' := by
  have hU : U64 = 2 ^ 64 := rfl
  have hvs : vsub stop start = subVec stop start := by
    apply vsub_eq
    · intro d hd; exact Nat.le_of_lt (hr.lt d (by rw [← hr.stopLen]; exact hd)).1
    · rw [hr.startLen, hr.stopLen]
    · intro x hx
      obtain ⟨d, hd, rfl⟩ := List.getElem_of_mem hx
      have := (hr.lt d (by rw [← hr.stopLen]; exact hd)).2
      rw [List.getD_eq_getElem?_getD, List.getElem?_eq_getElem hd, Option.getD_some] at this
      omega
  have hls : stop.length = start.length := by rw [hr.startLen, hr.stopLen]
  have hshape : a.shape = (vsub stop start).map (wadd · (2 * overlap)) := by
    rw [hvs, hr.shape]
    apply List.map_congr_left
    intro x hx
    obtain ⟨d, hd, rfl⟩ := List.getElem_of_mem hx
    rw [length_subVec hls] at hd
    have h1 := getD_subVec hls d
    rw [List.getD_eq_getElem?_getD, List.getElem?_eq_getElem (by rw [length_subVec hls]; exact hd), Option.getD_some] at h1
    have h2 := (hr.lt d (by rw [← hr.stopLen]; exact hd)).2
    have h3 := hr.ovl
    rw [wadd_eq]
    omega
  have hnull := isAllNull_ok hC hr.arr
  let ct : CType := if opt && a.null then .all_null else .specified
  have hct : (if opt then (isAllNull C.vd (a.hdr C.vd) a.buf floatNull).bind fun b => .ok (if b then CType.all_null else .specified)
    else .ok .specified) = Res.ok ct := by
    rw [hnull]; simp only [Res.ok_bind, ct]
    cases opt <;> cases a.null <;> rfl
  let m := mkMeta ct (if ct = .specified then uuid else []) lib.idx.nextId start (vsub stop start) overlap
  have hstop : m.stop = stop := by
    show vadd start (vsub stop start) = stop
    rw [hvs, vadd_eq (by rw [length_subVec hls, hls])]
    · apply ext_getD
      · simp [addVec, length_subVec hls, hls]
      · intro d hd
        have hd : d < C.dims := by simpa [addVec, length_subVec hls, hls, hr.startLen] using hd
        rw [getD_addVec (by rw [length_subVec hls, hls]), getD_subVec hls]
        have := hr.lt d hd
        omega
    · intro d hd
      rw [getD_subVec hls]
      have := hr.lt d (by rw [← hr.startLen]; exact hd)
      omega
  have hnc : ct = .all_null → (opt && a.null) = true := fun hc => by
    cases e : (opt && a.null) with
    | true => rfl
    | false => simp only [ct, e] at hc; cases hc
  have hmct : m.ctype = ct := rfl
  have hmo : m.overlap = overlap := rfl
  have hmsh : m.shape = subVec stop start := hvs
  have hsa : (stored C a start stop overlap opt).Ok C ∧ (stored C a start stop overlap opt).shape = m.shape.map (· + 2 * padOf m) := by
    by_cases e : (opt && a.null) = true
    · have hc : ct = .all_null := if_pos e
      have hpo : padOf m = 0 := by unfold padOf; rw [if_pos (hmct.trans hc)]
      by_cases h0 : overlap = 0
      · have : stored C a start stop overlap opt = a := by rw [h0, stored_zero]
        rw [this, hpo, hmsh]
        exact ⟨hr.arr, by rw [hr.shape, h0]⟩
      · rw [stored_null e h0, hpo, hmsh]
        rw [Bool.and_eq_true] at e
        rcases hr.pad e.1 e.2 with g | g
        · exact absurd g h0
        · exact ⟨zeros_ok g.2, by simp [zeros]⟩
    · have e : (opt && a.null) = false := by simpa using e
      have hc : ct = .specified := if_neg (by rw [e]; decide)
      rw [stored_spec e, padOf_spec (hmct.trans hc), hmsh, hmo]
      exact ⟨hr.arr, hr.shape⟩
  have hp : Placed C m (stored C a start stop overlap opt) := by
    refine ⟨hr.startLen, ?_, ?_, ?_, ?_, hr.ovl, rfl, hsa.2, hn, ?_⟩
    · show (vsub stop start).length = _
      rw [hvs, length_subVec hls, hr.stopLen]
    · intro d hd
      show 0 < (vsub stop start).getD d 0
      rw [hvs, getD_subVec hls]
      have := hr.lt d hd
      omega
    · rw [hstop]
      show stop = addVec start (vsub stop start)
      rw [← hstop]
      show vadd start (vsub stop start) = addVec start (vsub (vadd start (vsub stop start)) start)
      rw [show vadd start (vsub stop start) = stop from hstop]
      rw [hvs]
      apply ext_getD
      · simp [addVec, length_subVec hls, hls]
      · intro d hd
        rw [getD_addVec (by rw [length_subVec hls, hls]), getD_subVec hls]
        have := hr.lt d (by rw [← hr.stopLen]; exact hd)
        omega
    · intro d hd; rw [hstop]; exact (hr.lt d hd).2
    · show (if ct = .specified then uuid else []).length < 2 ^ 64
      split
      · exact hr.uuid.2.1
      · decide
  have hpath : m.path = if opt && a.null then [] else uuid := by
    show (if ct = .specified then uuid else []) = _
    by_cases e : (opt && a.null) = true
    · have hc : ct = .all_null := if_pos e
      rw [hc, if_pos e]; rfl
    · have hc : ct = .specified := if_neg e
      rw [hc, if_neg e]; rfl
  have hsp : m.ctype = .specified → m.path ≠ [] ∧ ∀ c ∈ cs, c.1.path ≠ m.path := by
    show ct = .specified → _
    intro hc
    have : m.path = uuid := by show (if ct = .specified then uuid else []) = _; rw [if_pos hc]
    rw [this]
    exact ⟨hr.uuid.1, hr.uuid.2.2⟩
  have hnu : m.ctype = .all_null → m.path = [] ∧ AEq C.vd (zeros C.vd m.shape) (stored C a start stop overlap opt) := by
    show ct = .all_null → _
    intro hc
    have hb := hnc hc
    refine ⟨by rw [hpath, hb]; rfl, ?_⟩
    rw [hmsh]
    by_cases h0 : overlap = 0
    · rw [Bool.and_eq_true] at hb
      have : subVec stop start = a.shape := by rw [hr.shape, h0]; simp
      rw [h0, stored_zero, this]
      exact null_aeq hC hr.arr hb.2
    · rw [stored_null hb h0]
      rw [Bool.and_eq_true] at hb
      rcases hr.pad hb.1 hb.2 with g | g
      · exact absurd g h0
      · exact AEq.refl hC (zeros_ok g.2)
  have hch := h.chunky.snoc hp hsa.1 (fun c hc => by rw [hstop]; exact hr.disj c hc) hid hsp hnu
  obtain ⟨s, hs⟩ := h.cache
  have hsn : chunksOf (cs ++ [(m, stored C a start stop overlap opt)]) = (chunksOf cs).put m.id (some (m, stored C a start stop overlap opt)) :=
    chunksOf_snoc (c := (m, stored C a start stop overlap opt)) hid
  have hok := hch.ok
  rw [hsn] at hok
  have hkey : m.id ∉ s.map Prod.fst := fun hk => by
    obtain ⟨e, he⟩ := mem_of_key hk
    obtain ⟨m', a', h1, _⟩ := hs.cached _ _ he
    exact hid (List.mem_map.2 ⟨_, chunksOf_mem h1⟩)
  obtain ⟨cc', fs', s', e1, e2, e3, e4⟩ : ∃ cc' fs' s', registerNew C lib.cc fs m a = .ok (cc', fs') ∧ cc'.dir = lib.cc.dir ∧
      CInv C ((chunksOf cs).put m.id (some (m, stored C a start stop overlap opt))) cc' fs' s' ∧
      SameBut lib.cc.dir ((chunksOf cs).put m.id (some (m, stored C a start stop overlap opt))) fs fs' := by
    by_cases e : (opt && a.null) = true ∧ overlap ≠ 0
    · have hb := e.1
      rw [Bool.and_eq_true] at hb
      rcases hr.pad hb.1 hb.2 with g | g
      · exact absurd g e.2
      · exact registerNull_ok hC h.chunky.ok hs hr.arr hb.2 (if_pos e.1) g.1 hok hkey
    · have : stored C a start stop overlap opt = a := by
        by_cases h0 : overlap = 0
        · rw [h0, stored_zero]
        · exact stored_spec (by
            cases e' : (opt && a.null) with
            | false => rfl
            | true => exact absurd ⟨e', h0⟩ e)
      rw [this] at hok ⊢
      exact registerNew_ok hC h.chunky.ok hs (m := m) (a := a) hok hkey
  obtain ⟨t, f1, f2⟩ := IdxInv.insert_ok (x := { lib.idx with valid := false, nextId := wadd lib.idx.nextId 1 }) hC
    (h.idx.congr rfl rfl) (m := m) hp.isBox
  refine ⟨⟨cc', { lib.idx with valid := false, nextId := wadd lib.idx.nextId 1, tree := t, heap := lib.idx.heap ++ [m] }⟩, fs', m, ?_,
    ⟨hch, ?_, ?_, ⟨s', ?_⟩, metaValid_false rfl⟩, rfl, hstop, rfl, rfl, hpath, rfl, rfl, rfl, ?_⟩
  · unfold Lib.register
    rw [show decide (a.shape = (vsub stop start).map (wadd · (2 * overlap))) = true from decide_eq_true hshape]
    show Res.bind _ _ = _
    rw [hct]
    simp only [Res.ok_bind]
    unfold Index.register
    simp only
    rw [show mkMeta ct (if ct = .specified then uuid else []) lib.idx.nextId start (vsub stop start) overlap = m from rfl, f1]
    simp only [Res.ok_bind]
    rw [e1]; rfl
  · rw [List.map_append]; exact f2
  · rw [e2]; exact h.dir
  · rw [hsn]; exact e3
  · rw [hsn, ← h.dir]; exact e4

end Verif.Dist
