import Verif.Meep.SaveProof
/-
The saving callback issues exactly the calls of `Cols` for one column per box of the partition of each simulation chunk.
-/
namespace Verif.Meep
open Verif Verif.ND Verif.Dist Verif.Tree Verif.Ops

variable {C : Cfg} {S : Sorter} {Z : SlabSize} {T L : Nat} {ds : List Nat} {uuid : Nat → Nat → Nat → List Nat} {cs : List SimChunk} {fld : Nat → Nat → List Nat} {N : Nat}

/-! ### Columns -/

/-- A column: a simulation chunk and its number, a box of it and its number. -/
abbrev Col := (SimChunk × Nat) × ((List Nat × List Nat) × Nat)

def colsOf (L : Nat) (ds : List Nat) (cs : List SimChunk) : List Col :=
  cs.zipIdx.flatMap fun c => (boxesOf L ds c.1).zipIdx.map fun b => (c, b)

def colLo (ds : List Nat) (x : Col) : List Nat := addVec (sLo ds x.1.1) x.2.1.1.tail
def colHi (ds : List Nat) (x : Col) : List Nat := addVec (sLo ds x.1.1) x.2.1.2.tail
def colSlice (C : Cfg) (ds : List Nat) (fld : Nat → Nat → List Nat) (n : Nat) (x : Col) : Arr :=
  sliceOf C ⟨1 :: pShape ds x.1.1, procOf C ds n x.1.1 (fld n x.1.2)⟩ x.2.1

/-- The call for a column. -/
def colOp (C : Cfg) (T : Nat) (ds : List Nat) (uuid : Nat → Nat → Nat → List Nat) (fld : Nat → Nat → List Nat) (n : Nat) (x : Col) : LOp :=
  if n % T = 0 then .register (uuid n x.1.2 x.2.2) (colSlice C ds fld n x) (n :: colLo ds x) ((n + 1) :: colHi ds x) 0 false
  else .append (n :: colLo ds x) (colSlice C ds fld n x)

def atCol {α : Type} (l : List Col) (k : Nat) (d : α) (f : Col → α) : α :=
  match l[k]? with
  | some x => f x
  | none => d

theorem atCol_some {α : Type} {l : List Col} {k : Nat} {x : Col} (h : l[k]? = some x) (d : α) (f : Col → α) : atCol l k d f = f x := by
  unfold atCol; rw [h]

def Kof (C : Cfg) (L : Nat) (ds : List Nat) (uuid : Nat → Nat → Nat → List Nat) (cs : List SimChunk) (fld : Nat → Nat → List Nat) : Cols where
  m := (colsOf L ds cs).length
  lo k := atCol (colsOf L ds cs) k [] (colLo ds)
  hi k := atCol (colsOf L ds cs) k [] (colHi ds)
  slice n k := atCol (colsOf L ds cs) k ⟨[], []⟩ (colSlice C ds fld n)
  uuid n k := atCol (colsOf L ds cs) k [] fun x => uuid n x.1.2 x.2.2

theorem kof_op {n k : Nat} {x : Col} (h : (colsOf L ds cs)[k]? = some x) : (Kof C L ds uuid cs fld).op T n k = colOp C T ds uuid fld n x := by
  unfold Cols.op colOp Kof
  simp only [atCol_some h]

theorem map_range_get {α β : Type} (l : List α) (g : Nat → β) (f : α → β) (h : ∀ k x, l[k]? = some x → g k = f x) : (List.range l.length).map g = l.map f := by
  apply List.ext_getElem?
  intro k
  rw [List.getElem?_map, List.getElem?_map]
  by_cases hk : k < l.length
  · rw [List.getElem?_range hk]
    simp only [List.getElem?_eq_getElem hk, Option.map_some]
    rw [h k _ (List.getElem?_eq_getElem hk)]
  · rw [List.getElem?_eq_none (by simpa using hk), List.getElem?_eq_none (by omega)]
    rfl

theorem kof_row (n : Nat) : (Kof C L ds uuid cs fld).row T n (Kof C L ds uuid cs fld).m = (colsOf L ds cs).map (colOp C T ds uuid fld n) :=
  map_range_get _ _ _ fun _ _ h => kof_op h

theorem kof_row_chunks (n : Nat) : (Kof C L ds uuid cs fld).row T n (Kof C L ds uuid cs fld).m =
    cs.zipIdx.flatMap fun c => (boxesOf L ds c.1).zipIdx.map fun b => colOp C T ds uuid fld n (c, b) := by
  rw [kof_row, colsOf, List.map_flatMap]
  congr 1
  funext c
  rw [List.map_map]
  rfl

/-- Members of the list of columns. -/
theorem mem_cols {x : Col} (h : x ∈ colsOf L ds cs) : cs[x.1.2]? = some x.1.1 ∧ (boxesOf L ds x.1.1)[x.2.2]? = some x.2.1 := by
  unfold colsOf at h
  obtain ⟨c, hc, h⟩ := List.mem_flatMap.1 h
  obtain ⟨b, hb, rfl⟩ := List.mem_map.1 h
  exact ⟨List.mem_zipIdx_iff_getElem?.1 hc, List.mem_zipIdx_iff_getElem?.1 hb⟩

theorem mem_cols_iff {x : Col} : x ∈ colsOf L ds cs ↔ cs[x.1.2]? = some x.1.1 ∧ (boxesOf L ds x.1.1)[x.2.2]? = some x.2.1 := by
  refine ⟨mem_cols, fun ⟨h1, h2⟩ => ?_⟩
  unfold colsOf
  exact List.mem_flatMap.2 ⟨x.1, List.mem_zipIdx_iff_getElem?.2 h1, List.mem_map.2 ⟨x.2, List.mem_zipIdx_iff_getElem?.2 h2, rfl⟩⟩

/-! ### The box of a column -/

/-- The box of a column, in the coarse indices of the storage domain. -/
theorem SimOk.colBox (h : SimOk C T L ds uuid cs fld N) {x : Col} (hx : x ∈ colsOf L ds cs) :
    (colLo ds x).length = ds.length ∧ (colHi ds x).length = ds.length ∧
    (∀ d < ds.length, (colLo ds x).getD d 0 < (colHi ds x).getD d 0 ∧ (colHi ds x).getD d 0 < 2 ^ 62 ∧ (colHi ds x).getD d 0 ≤ (colLo ds x).getD d 0 + L) ∧
    (∀ j, InBox (colLo ds x) (colHi ds x) j → InBox (sLo ds x.1.1) (sHi ds x.1.1) j ∧ InBox x.2.1.1.tail x.2.1.2.tail (subVec j (sLo ds x.1.1))) ∧
    subVec (colHi ds x) (colLo ds x) = subVec x.2.1.2.tail x.2.1.1.tail ∧
    ∀ j, InBox (colLo ds x) (colHi ds x) j → subVec j (colLo ds x) = subVec (subVec j (sLo ds x.1.1)) x.2.1.1.tail := by
  obtain ⟨m1, m2⟩ := mem_cols hx
  have hc : x.1.1 ∈ cs := List.mem_of_getElem? m1
  obtain ⟨c1, c2, c3, c4, c5, c6, c7⟩ := h.coarse hc
  have hb := (h.boxes hc).1 _ (List.mem_of_getElem? m2)
  have e1 : (colLo ds x).length = ds.length := by unfold colLo; rw [addVec_length (by rw [hb.loLen, c1])]; exact c1
  have e2 : (colHi ds x).length = ds.length := by unfold colHi; rw [addVec_length (by rw [hb.hiLen, c1])]; exact c1
  have hps : ∀ d < ds.length, (sLo ds x.1.1).getD d 0 + (pShape ds x.1.1).getD d 0 = (sHi ds x.1.1).getD d 0 := by
    intro d hd
    have := c4.2 d (by omega)
    unfold pShape
    rw [getD_subVec (by omega)]; omega
  have g1 : ∀ d, (colLo ds x).getD d 0 = (sLo ds x.1.1).getD d 0 + x.2.1.1.tail.getD d 0 := fun d => by
    unfold colLo; exact getD_addVec (c1.trans hb.loLen.symm) d
  have g2 : ∀ d, (colHi ds x).getD d 0 = (sLo ds x.1.1).getD d 0 + x.2.1.2.tail.getD d 0 := fun d => by
    unfold colHi; exact getD_addVec (c1.trans hb.hiLen.symm) d
  refine ⟨e1, e2, ?_, ?_, ?_, ?_⟩
  · intro d hd
    have h1 := hb.box d hd
    have h2 := hps d hd
    have h3 := c6 d hd
    rw [g1, g2]
    omega
  · intro j hj
    obtain ⟨a, b, c⟩ := (inBox_shift (by rw [hb.loLen, c1]) (by rw [hb.hiLen, c1])).1 hj
    refine ⟨⟨a, by omega, fun d hd => ?_⟩, c⟩
    have h1 := hj.2.2 d (by rw [hj.1] at *; omega)
    have h2 := hb.box d (by omega)
    have h3 := hps d (by omega)
    rw [g1, g2] at h1
    omega
  · apply vec_ext
    · rw [length_subVec (by omega), length_subVec (by rw [hb.hiLen, hb.loLen]), e2, hb.hiLen]
    · intro d hd
      rw [getD_subVec (by omega), getD_subVec (by rw [hb.hiLen, hb.loLen]), g1, g2]
      omega
  · intro j hj
    have hjl : j.length = ds.length := by rw [hj.1, e1]
    apply vec_ext
    · rw [length_subVec (by omega), length_subVec (by rw [length_subVec (by omega), hb.loLen]; omega), length_subVec (by omega)]
    · intro d hd
      rw [getD_subVec (by omega), getD_subVec (by rw [length_subVec (by omega), hb.loLen]; omega), getD_subVec (by omega), g1]
      omega

/-! ### The slice of a column -/

/-- A bound on the words of all elements is one on the words of the buffer. -/
theorem words_of_elems {vd B : Nat} (hvd : 0 < vd) {P a : List Nat} (ha : a.length = volume vd P)
    (h : ∀ i, ValidInd P i → ∃ v, read vd (mkHdr vd P) a i = .ok v ∧ ∀ w ∈ v, w < B) : ∀ w ∈ a, w < B := by
  intro w hw
  obtain ⟨x, hx, rfl⟩ := List.getElem_of_mem hw
  have hx' := hx
  rw [ha, volume_eq, Nat.mul_comm] at hx'
  obtain ⟨i, hi, he⟩ := lin_surj P (x / vd) (Nat.div_lt_of_lt_mul hx')
  obtain ⟨v, e1, e2⟩ := h i hi
  rw [read_own ha hi, he] at e1
  injection e1 with e1
  apply e2
  rw [← e1]
  have hm := Nat.div_add_mod x vd
  have hlt := Nat.mod_lt x hvd
  apply List.mem_of_getElem? (i := x % vd)
  rw [List.getElem?_take, if_pos hlt, List.getElem?_drop, hm, List.getElem?_eq_getElem hx]

/-- Shape, size and elements of the slice of a column: the value at a coarse index is the one of the field buffer at the fine index. -/
theorem SimOk.colSlice (hC : C.Ok) (h : SimOk C T L ds uuid cs fld N) {n : Nat} (hn : n < N) {x : Col} (hx : x ∈ colsOf L ds cs) :
    (colSlice C ds fld n x).shape = 1 :: subVec (colHi ds x) (colLo ds x) ∧
    (Meep.colSlice C ds fld n x).buf.length = volume C.vd (Meep.colSlice C ds fld n x).shape ∧
    (∀ w ∈ (Meep.colSlice C ds fld n x).buf, w < 2 ^ 32) ∧
    ∀ j, InBox (colLo ds x) (colHi ds x) j → ∃ v, (Meep.colSlice C ds fld n x).get C.vd (0 :: subVec j (colLo ds x)) = .ok v ∧
      read C.vd (mkHdr C.vd (1 :: x.1.1.shape)) (fld n x.1.2) (0 :: subVec (onFine j ds) x.1.1.start) = .ok v := by
  obtain ⟨m1, m2⟩ := mem_cols hx
  have hc : x.1.1 ∈ cs := List.mem_of_getElem? m1
  have hb := (h.boxes hc).1 _ (List.mem_of_getElem? m2)
  obtain ⟨b1, b2, b3, b4, b5, b6⟩ := h.colBox hx
  obtain ⟨s1, s2, s3⟩ := h.slice hC hn m1 (List.mem_of_getElem? m2) _ rfl
  obtain ⟨d1, d2, d3, d4⟩ := h.down hC hn m1
  have hsh : (Meep.colSlice C ds fld n x).shape = 1 :: subVec (colHi ds x) (colLo ds x) := by
    show subVec x.2.1.2 x.2.1.1 = _
    rw [b5, hb.fst, hb.snd]; rfl
  have hel : ∀ j, InBox (colLo ds x) (colHi ds x) j → ∃ v, (Meep.colSlice C ds fld n x).get C.vd (0 :: subVec j (colLo ds x)) = .ok v ∧
      read C.vd (mkHdr C.vd (1 :: x.1.1.shape)) (fld n x.1.2) (0 :: subVec (onFine j ds) x.1.1.start) = .ok v ∧ ValidInd x.1.1.shape (subVec (onFine j ds) x.1.1.start) := by
    intro j hj
    obtain ⟨i1, i2⟩ := b4 j hj
    obtain ⟨v, e1, e2, e3⟩ := d4 j i1
    refine ⟨v, ?_, e2, e3⟩
    rw [b6 j hj]
    exact (s3 _ i2).trans e1
  refine ⟨hsh, s2, ?_, fun j hj => ?_⟩
  · apply words_of_elems hC.vd s2
    intro i hi
    have hi' : ValidInd (1 :: subVec (colHi ds x) (colLo ds x)) i := by rw [← hsh]; exact hi
    obtain ⟨i0, is, rfl, h0, h1⟩ := validInd_cons_left.1 hi'
    have : i0 = 0 := by omega
    subst this
    have hj := inBox_ext (s := colLo ds x) (e := colHi ds x) (by omega) h1
    obtain ⟨v, e1, e2, e3⟩ := hel _ hj
    have hsub : subVec (addVec (colLo ds x) is) (colLo ds x) = is := by
      have hil : is.length = ds.length := by rw [h1.1, length_subVec (by omega)]; exact b2
      apply vec_ext
      · rw [length_subVec (by rw [addVec_length (by omega)]), addVec_length (by omega)]; omega
      · intro d hd
        rw [getD_subVec (by rw [addVec_length (by omega)]), getD_addVec (by omega)]; omega
    rw [hsub] at e1
    refine ⟨v, e1, fun w hw => ?_⟩
    obtain ⟨f1, f2⟩ := h.data n hn _ _ m1
    rw [read_own f1 (validInd_cons.2 ⟨Nat.one_pos, e3⟩)] at e2
    injection e2 with e2
    rw [← e2] at hw
    exact f2 w (List.mem_of_mem_drop (List.mem_of_mem_take hw))
  · obtain ⟨v, e1, e2, _⟩ := hel j hj
    exact ⟨v, e1, e2⟩

/-! ### The columns are admissible -/

theorem pairwise_zipIdx {α : Type} {R : α → α → Prop} : ∀ {l : List α} {k : Nat}, l.Pairwise R → (l.zipIdx k).Pairwise fun x y => R x.1 y.1 ∧ x.2 < y.2
  | [], _, _ => List.Pairwise.nil
  | a :: l, k, h => by
      obtain ⟨h1, h2⟩ := List.pairwise_cons.1 h
      rw [List.zipIdx_cons]
      refine List.Pairwise.cons ?_ (pairwise_zipIdx h2)
      intro y hy
      have hy1 := List.le_snd_of_mem_zipIdx hy
      have hy2 := List.fst_mem_of_mem_zipIdx hy
      exact ⟨h1 _ hy2, hy1⟩

theorem SimOk.colsApart (h : SimOk C T L ds uuid cs fld N) :
    (colsOf L ds cs).Pairwise fun x y => DisjointBox (colLo ds x) (colHi ds x) (colLo ds y) (colHi ds y) ∧ (x.1.2 < y.1.2 ∨ (x.1.2 = y.1.2 ∧ x.2.2 < y.2.2)) := by
  have hp : (colsOf L ds cs).Pairwise fun x y => (DisjointBox x.1.1.start (addVec x.1.1.start x.1.1.shape) y.1.1.start (addVec y.1.1.start y.1.1.shape) ∧ x.1.2 < y.1.2) ∨
      (x.1 = y.1 ∧ DisjointBox x.2.1.1.tail x.2.1.2.tail y.2.1.1.tail y.2.1.2.tail ∧ x.2.2 < y.2.2) := by
    unfold colsOf
    rw [List.pairwise_flatMap]
    constructor
    · intro c hc
      rw [List.pairwise_map]
      have hc' : c.1 ∈ cs := List.fst_mem_of_mem_zipIdx hc
      exact (pairwise_zipIdx (h.boxes hc').2.2.1).imp fun hxy => Or.inr ⟨rfl, hxy⟩
    · refine (pairwise_zipIdx h.apart).imp fun hxy => ?_
      intro x hx y hy
      obtain ⟨b, _, rfl⟩ := List.mem_map.1 hx
      obtain ⟨b', _, rfl⟩ := List.mem_map.1 hy
      exact Or.inl hxy
  refine hp.imp_of_mem fun {x y} hx hy hxy => ?_
  obtain ⟨_, _, _, bx, _, _⟩ := h.colBox hx
  obtain ⟨_, _, _, by', _, _⟩ := h.colBox hy
  have hcx := h.coarse (List.mem_of_getElem? (mem_cols hx).1)
  have hcy := h.coarse (List.mem_of_getElem? (mem_cols hy).1)
  rcases hxy with ⟨hd, hlt⟩ | ⟨he, hd, hlt⟩
  · refine ⟨?_, Or.inl hlt⟩
    intro j hj
    have h1 := (bx j hj.1).1
    have h2 := (by' j hj.2).1
    exact hd _ ⟨(hcx.2.2.2.2.1 j (by rw [h1.1, hcx.1])).1 h1, (hcy.2.2.2.2.1 j (by rw [h1.1, hcx.1])).1 h2⟩
  · refine ⟨?_, Or.inr ⟨by rw [he], hlt⟩⟩
    intro j hj
    have h1 := (bx j hj.1).2
    have h2 := (by' j hj.2).2
    rw [← he] at h2
    exact hd _ ⟨h1, h2⟩

theorem SimOk.colsLength (h : SimOk C T L ds uuid cs fld N) : (colsOf L ds cs).length ≤ (cs.map fun c => numElems c.shape).sum := by
  have hb : ∀ c ∈ cs, (boxesOf L ds c).length ≤ numElems c.shape := fun c hc => (h.boxes hc).2.2.2.1
  unfold colsOf
  rw [List.length_flatMap]
  simp only [List.length_map, List.length_zipIdx]
  generalize 0 = k
  clear h
  induction cs generalizing k with
  | nil => simp
  | cons c cs ih =>
    rw [List.zipIdx_cons]
    simp only [List.map_cons, List.sum_cons]
    have := hb c (by simp)
    have := ih (fun c hc => hb c (by simp [hc])) (k + 1)
    omega

theorem SimOk.cols (hC : C.Ok) (h : SimOk C T L ds uuid cs fld N) : (Kof C L ds uuid cs fld).Ok C T N := by
  have hget : ∀ k < (colsOf L ds cs).length, ∃ x, (colsOf L ds cs)[k]? = some x ∧ x ∈ colsOf L ds cs :=
    fun k hk => ⟨_, List.getElem?_eq_getElem hk, List.getElem_mem hk⟩
  have hlo : ∀ {k x}, (colsOf L ds cs)[k]? = some x → (Kof C L ds uuid cs fld).lo k = colLo ds x := fun hx => atCol_some hx _ _
  have hhi : ∀ {k x}, (colsOf L ds cs)[k]? = some x → (Kof C L ds uuid cs fld).hi k = colHi ds x := fun hx => atCol_some hx _ _
  have hsl : ∀ {n k x}, (colsOf L ds cs)[k]? = some x → (Kof C L ds uuid cs fld).slice n k = Meep.colSlice C ds fld n x := fun hx => atCol_some hx _ _
  have huu : ∀ {n k x}, (colsOf L ds cs)[k]? = some x → (Kof C L ds uuid cs fld).uuid n k = uuid n x.1.2 x.2.2 := fun hx => atCol_some hx _ _
  have hdims := h.dims
  have hpair := h.colsApart
  have hord : ∀ {k k' : Nat} {x y : Col}, k ≠ k' → (colsOf L ds cs)[k]? = some x → (colsOf L ds cs)[k']? = some y →
      DisjointBox (colLo ds x) (colHi ds x) (colLo ds y) (colHi ds y) ∧ (x.1.2 ≠ y.1.2 ∨ x.2.2 ≠ y.2.2) := by
    intro k k' x y hne hx hy
    have hk := lt_of_get? hx
    have hk' := lt_of_get? hy
    rw [List.getElem?_eq_getElem hk] at hx
    rw [List.getElem?_eq_getElem hk'] at hy
    cases hx; cases hy
    rcases Nat.lt_or_gt_of_ne hne with hlt | hlt
    · obtain ⟨h1, h2⟩ := List.pairwise_iff_getElem.1 hpair k k' hk hk' hlt
      exact ⟨h1, by omega⟩
    · obtain ⟨h1, h2⟩ := List.pairwise_iff_getElem.1 hpair k' k hk' hk hlt
      exact ⟨fun i hi => h1 i ⟨hi.2, hi.1⟩, by omega⟩
  have hfit : ∀ k < (Kof C L ds uuid cs fld).m, ∀ t, 0 < t → t ≤ T → Fit C (t :: subVec ((Kof C L ds uuid cs fld).hi k) ((Kof C L ds uuid cs fld).lo k)) := by
    intro k hk t h0 hT
    obtain ⟨x, hx, hm⟩ := hget k hk
    rw [hlo hx, hhi hx]
    obtain ⟨b1, b2, b3, _⟩ := h.colBox hm
    have hl : (subVec (colHi ds x) (colLo ds x)).length = ds.length := by rw [length_subVec (by omega)]; exact b2
    have hle : ∀ y ∈ subVec (colHi ds x) (colLo ds x), y ≤ L := by
      intro y hy
      obtain ⟨d, hd, rfl⟩ := List.getElem_of_mem hy
      have h1 : (subVec (colHi ds x) (colLo ds x)).getD d 0 = (subVec (colHi ds x) (colLo ds x))[d] := by
        rw [List.getD_eq_getElem?_getD, List.getElem?_eq_getElem hd]; rfl
      rw [← h1, getD_subVec (by omega)]
      have := b3 d (by omega)
      omega
    have hprod := prod_le_pow hle
    rw [hl] at hprod
    obtain ⟨v1, v2, v3, v4⟩ := h.vol
    have hvd := hC.vd
    refine ⟨by rw [List.length_cons, hl]; exact hdims.symm, ?_, ?_, ?_, ?_, ?_⟩
    · intro y hy
      rcases List.mem_cons.1 hy with rfl | hy
      · omega
      · have := hle y hy; omega
    · rw [volume_eq, prod]
      have : t * prod (subVec (colHi ds x) (colLo ds x)) * C.vd ≤ T * L ^ ds.length * C.vd := Nat.mul_le_mul_right _ (Nat.mul_le_mul hT hprod)
      omega
    · rw [h.stream]; exact Nat.one_dvd _
    · intro d hd0 hd
      left
      cases d with
      | zero => omega
      | succ d =>
        rw [h.stream]
        simp only [List.getD_cons_succ]
        have hd' : d < ds.length := by omega
        have : (List.replicate ds.length (2 ^ 64 - 1)).getD d 0 = 2 ^ 64 - 1 := by
          rw [List.getD_eq_getElem?_getD, List.getElem?_replicate, if_pos hd']; rfl
        rw [this, getD_subVec (by omega)]
        have := b3 d hd'
        omega
    · rw [h.stream, List.tail_cons, numElems_eq]
      show 1 * prod (subVec (colHi ds x) (colLo ds x)) < _
      omega
  refine ⟨h.posT, ?_, ?_, ?_, ?_, hfit, ?_, ?_, h.steps, ?_⟩
  · intro k hk
    obtain ⟨x, hx, hm⟩ := hget k hk
    rw [hlo hx, hhi hx]
    obtain ⟨b1, b2, _⟩ := h.colBox hm
    omega
  · intro k hk d hd
    obtain ⟨x, hx, hm⟩ := hget k hk
    rw [hlo hx] at hd
    rw [hlo hx, hhi hx]
    obtain ⟨b1, b2, b3, _⟩ := h.colBox hm
    have := b3 d (by omega)
    omega
  · intro k hk k' hk' hne
    obtain ⟨x, hx, hm⟩ := hget k hk
    obtain ⟨y, hy, hm'⟩ := hget k' hk'
    rw [hlo hx, hhi hx, hlo hy, hhi hy]
    exact (hord hne hx hy).1
  · intro n hn k hk
    obtain ⟨x, hx, hm⟩ := hget k hk
    have hf := hfit k hk 1 Nat.one_pos h.posT
    rw [hlo hx, hhi hx] at hf
    rw [hsl hx, hlo hx, hhi hx]
    obtain ⟨s1, s2, s3, _⟩ := h.colSlice hC hn hm
    exact ⟨⟨by rw [s1]; exact hf, s2, s3⟩, s1⟩
  · intro n hn k hk
    obtain ⟨x, hx, hm⟩ := hget k hk
    rw [huu hx]
    exact h.name _ _ _
  · intro n hn n' hn' k hk k' hk' he
    obtain ⟨x, hx, hm⟩ := hget k hk
    obtain ⟨y, hy, hm'⟩ := hget k' hk'
    rw [huu hx, huu hy] at he
    obtain ⟨e1, e2, e3⟩ := h.inj _ _ _ _ _ _ he
    refine ⟨e1, ?_⟩
    by_cases hne : k = k'
    · exact hne
    · have := (hord hne hx hy).2
      omega
  · have h1 := h.colsLength
    have h2 : N * (colsOf L ds cs).length ≤ N * (cs.map fun c => numElems c.shape).sum := Nat.mul_le_mul_left _ h1
    have := h.total
    show N * (colsOf L ds cs).length + 1 < _
    omega

end Verif.Meep
