import Verif.Meep.Columns
/-
C45 (time slices of a simulation are stored without gaps or overlaps).
-/
namespace Verif.Meep
open Verif Verif.ND Verif.Dist Verif.Tree Verif.Ops

variable {C : Cfg} {S : Sorter} {Z : SlabSize} {T L : Nat} {ds : List Nat} {uuid : Nat → Nat → Nat → List Nat} {cs : List SimChunk} {fld : Nat → Nat → List Nat} {N : Nat}

/-! ### The program makes the calls of the columns -/

theorem run_append_inv (C : Cfg) (S : Sorter) : ∀ (a b : List LOp) {st st' : MState} {rs : List Out}, st.run C S (a ++ b) = .ok (st', rs) →
    ∃ st1 r1 r2, st.run C S a = .ok (st1, r1) ∧ st1.run C S b = .ok (st', r2)
  | [], b, st, st', rs, h => ⟨st, [], rs, rfl, h⟩
  | op :: a, b, st, st', rs, h => by
      simp only [List.cons_append, MState.run] at h
      obtain ⟨x, e1, h⟩ := Res.bind_eq_ok.1 h
      obtain ⟨y, e2, h⟩ := Res.bind_eq_ok.1 h
      obtain ⟨st1, r1, r2, g1, g2⟩ := run_append_inv C S a b e2
      cases h
      refine ⟨st1, x.2 :: r1, r2, ?_, g2⟩
      simp only [MState.run, e1, g1, Res.ok_bind]

/-- A loop whose body runs some calls. -/
theorem loop_calls {ι : Type} (F : ι → SaveState → Res SaveState) (ops : ι → List LOp) : ∀ (l : List ι),
    (∀ i ∈ l, ∀ q st' rs, q.st.run C S (ops i) = .ok (st', rs) → ∃ q', F i q = .ok q' ∧ q'.st = st') →
    ∀ q st' rs, q.st.run C S (l.flatMap ops) = .ok (st', rs) → ∃ q', runLoop F l q = .ok q' ∧ q'.st = st'
  | [], _, q, st', rs, h => by cases h; exact ⟨q, rfl, rfl⟩
  | i :: l, hF, q, st', rs, h => by
      rw [List.flatMap_cons] at h
      obtain ⟨st1, r1, r2, g1, g2⟩ := run_append_inv C S _ _ h
      obtain ⟨q1, e1, e2⟩ := hF i (by simp) q st1 r1 g1
      rw [← e2] at g2
      obtain ⟨q2, e3, e4⟩ := loop_calls F ops l (fun i hi => hF i (by simp [hi])) q1 st' r2 g2
      exact ⟨q2, by simp only [runLoop, e1, Res.ok_bind, e3], e4⟩

theorem SimOk.saveBox (hC : C.Ok) (h : SimOk C T L ds uuid cs fld N) {n : Nat} (hn : n < N) {x : Col} (hx : x ∈ colsOf L ds cs) (q : Arr × MState) {st' : MState} {out : Out}
    (hs : q.2.step C S (colOp C T ds uuid fld n x) = .ok (st', out)) :
    saveBox C S T n (uuid n x.1.2 x.2.2) (n :: sLo ds x.1.1) ⟨1 :: pShape ds x.1.1, procOf C ds n x.1.1 (fld n x.1.2)⟩ x.2.1 q = .ok (Meep.colSlice C ds fld n x, st') := by
  obtain ⟨m1, m2⟩ := mem_cols hx
  have hc : x.1.1 ∈ cs := List.mem_of_getElem? m1
  obtain ⟨c1, c2, c3, c4, c5, c6, c7⟩ := h.coarse hc
  have hb := (h.boxes hc).1 _ (List.mem_of_getElem? m2)
  obtain ⟨b1, b2, b3, b4, b5, b6⟩ := h.colBox hx
  obtain ⟨s1, s2, s3⟩ := h.slice hC hn m1 (List.mem_of_getElem? m2) _ rfl
  have hl1 : x.2.1.1.length = ds.length + 1 := by rw [hb.fst]; simp [hb.loLen]
  have hl2 : x.2.1.2.length = ds.length + 1 := by rw [hb.snd]; simp [hb.hiLen]
  have hbig : ∀ d < ds.length, x.2.1.2.tail.getD d 0 < 2 ^ 62 := by
    intro d hd
    have h1 := hb.box d hd
    have h2 := c6 d hd
    have h3 : (pShape ds x.1.1).getD d 0 ≤ (sHi ds x.1.1).getD d 0 := by unfold pShape; rw [getD_subVec (by omega)]; omega
    omega
  have hle : ∀ d < x.2.1.2.length, x.2.1.1.getD d 0 ≤ x.2.1.2.getD d 0 := by
    intro d hd
    rw [hb.fst, hb.snd]
    cases d with
    | zero => exact Nat.zero_le _
    | succ d =>
      have := hb.box d (by omega)
      simp only [List.getD_cons_succ]
      omega
  have hsm : ∀ y ∈ x.2.1.2, y < U64 := by
    apply small_of_getD
    intro d hd
    rw [hb.snd]
    cases d with
    | zero => show 1 < 2 ^ 64; decide
    | succ d =>
      have := hbig d (by omega)
      simp only [List.getD_cons_succ]
      omega
  have hvs : vsub x.2.1.2 x.2.1.1 = subVec x.2.1.2 x.2.1.1 := vsub_eq hle (by omega) hsm
  have hU : U64 = 2 ^ 64 := rfl
  have hsteps := h.steps
  have hstart : vadd (n :: sLo ds x.1.1) x.2.1.1 = n :: colLo ds x := by
    rw [vadd_eq (by rw [List.length_cons]; omega)]
    · rw [hb.fst]; rfl
    · intro d hd
      rw [hb.fst]
      cases d with
      | zero => show n + 0 < _; omega
      | succ d =>
        simp only [List.getD_cons_succ]
        have h1 := b3 d (by simp at hd; omega)
        have h2 : (colLo ds x).getD d 0 = (sLo ds x.1.1).getD d 0 + x.2.1.1.tail.getD d 0 := getD_addVec (c1.trans hb.loLen.symm) d
        omega
  have hsh : subVec x.2.1.2 x.2.1.1 = 1 :: subVec (colHi ds x) (colLo ds x) := by
    rw [b5, hb.fst, hb.snd]; rfl
  have hend : vadd (n :: colLo ds x) (subVec x.2.1.2 x.2.1.1) = (n + 1) :: colHi ds x := by
    rw [hsh]
    have hlev : LeVec (colLo ds x) (colHi ds x) := ⟨by omega, fun d hd => by have := b3 d (by omega); omega⟩
    have hadd := addVec_subVec hlev
    have hlen : (colLo ds x).length = (subVec (colHi ds x) (colLo ds x)).length := by rw [length_subVec (by omega)]; omega
    rw [vadd_eq (by simp only [List.length_cons]; omega)]
    · show (n + 1) :: addVec (colLo ds x) (subVec (colHi ds x) (colLo ds x)) = _
      rw [hadd]
    · intro d hd
      cases d with
      | zero => show n + 1 < _; omega
      | succ d =>
        simp only [List.getD_cons_succ]
        rw [← getD_addVec hlen, hadd]
        have := b3 d (by simp at hd; omega)
        omega
  unfold Meep.saveBox
  rw [hvs]
  have hr : resize C.vd (q.1.hdr C.vd) q.1.buf (subVec x.2.1.2 x.2.1.1) C.junk =
      .ok (mkHdr C.vd (subVec x.2.1.2 x.2.1.1), (List.range (volume C.vd (subVec x.2.1.2 x.2.1.1))).map fun k => q.1.buf.getD k (C.junk k)) := resize_own _ _ _ _ _
  rw [hr]
  simp only [Res.ok_bind]
  have hz : ((n :: sLo ds x.1.1).map fun _ => 0) = (x.2.1.1.map fun _ => 0) := by
    rw [List.map_const', List.map_const']
    congr 1
    rw [List.length_cons]; omega
  rw [hz, s1 _ (by simp)]
  simp only [Res.ok_bind]
  have harr : (⟨(mkHdr C.vd (subVec x.2.1.2 x.2.1.1)).shape, (sliceOf C ⟨1 :: pShape ds x.1.1, procOf C ds n x.1.1 (fld n x.1.2)⟩ x.2.1).buf⟩ : Arr) = Meep.colSlice C ds fld n x := rfl
  rw [harr]
  have hT := h.posT
  rw [if_neg (by omega), hstart]
  have hshp : (mkHdr C.vd (subVec x.2.1.2 x.2.1.1)).shape = subVec x.2.1.2 x.2.1.1 := rfl
  rw [hshp, hend]
  unfold colOp at hs
  by_cases h0 : n % T = 0
  · rw [if_pos h0] at hs ⊢
    rw [hs]; rfl
  · rw [if_neg h0] at hs ⊢
    rw [hs]; rfl

theorem loop_boxes {ι : Type} (F : ι → Arr × MState → Res (Arr × MState)) (op : ι → LOp) (g : ι → Arr) : ∀ (l : List ι),
    (∀ i ∈ l, ∀ q st' out, q.2.step C S (op i) = .ok (st', out) → F i q = .ok (g i, st')) →
    ∀ q st' rs, q.2.run C S (l.map op) = .ok (st', rs) → ∃ a, runLoop F l q = .ok (a, st')
  | [], _, q, st', rs, h => by cases h; exact ⟨q.1, rfl⟩
  | i :: l, hF, q, st', rs, h => by
      simp only [List.map_cons, MState.run] at h
      obtain ⟨x, e1, h⟩ := Res.bind_eq_ok.1 h
      obtain ⟨y, e2, h⟩ := Res.bind_eq_ok.1 h
      cases h
      have e3 := hF i (by simp) q x.1 x.2 e1
      obtain ⟨a, e4⟩ := loop_boxes F op g l (fun i hi => hF i (by simp [hi])) (g i, x.1) y.1 y.2 e2
      exact ⟨a, by simp only [runLoop, e3, Res.ok_bind, e4]⟩

theorem SimOk.saveChunk (hC : C.Ok) (h : SimOk C T L ds uuid cs fld N) {n : Nat} (hn : n < N) {c : SimChunk × Nat} (hc : cs[c.2]? = some c.1) (q : SaveState) {st' : MState} {rs : List Out}
    (hs : q.st.run C S ((boxesOf L ds c.1).zipIdx.map fun b => colOp C T ds uuid fld n (c, b)) = .ok (st', rs)) :
    ∃ q', saveChunk C S T L ds n (uuid n c.2) c.1 (fld n c.2) q = .ok q' ∧ q'.st = st' := by
  have hc' : c.1 ∈ cs := List.mem_of_getElem? hc
  obtain ⟨d1, d2, d3, d4⟩ := h.down hC hn hc
  unfold Meep.saveChunk
  rw [d1 q.proc]
  simp only [Res.ok_bind]
  rw [d2]
  simp only [Res.ok_bind]
  have hshp : (mkHdr C.vd (1 :: pShape ds c.1)).shape = 1 :: pShape ds c.1 := rfl
  rw [hshp, decide_eq_true rfl, Res.assert_true]
  simp only [Res.ok_bind]
  by_cases h0 : numElems (1 :: pShape ds c.1) = 0
  · rw [if_pos h0]
    have : boxesOf L ds c.1 = [] := if_pos h0
    rw [this] at hs
    cases hs
    exact ⟨_, rfl, rfl⟩
  · rw [if_neg h0, (h.boxes hc').2.2.2.2 h0]
    simp only [Res.ofLoop, Res.ok_bind]
    obtain ⟨a, e⟩ := loop_boxes (C := C) (S := S) (fun (b : (List Nat × List Nat) × Nat) y => Meep.saveBox C S T n (uuid n c.2 b.2) (n :: sLo ds c.1)
        ⟨1 :: pShape ds c.1, procOf C ds n c.1 (fld n c.2)⟩ b.1 y) (fun b => colOp C T ds uuid fld n (c, b)) (fun b => Meep.colSlice C ds fld n (c, b))
      (boxesOf L ds c.1).zipIdx (fun b hb q st' out hq => h.saveBox hC hn (x := (c, b)) (mem_cols_iff.2 ⟨hc, List.mem_zipIdx_iff_getElem?.1 hb⟩) q hq) (q.chunk, q.st) st' rs hs
    rw [e]
    exact ⟨_, rfl, rfl⟩

theorem SimOk.saveStep (hC : C.Ok) (h : SimOk C T L ds uuid cs fld N) {n : Nat} (hn : n < N) (q : SaveState) {st' : MState} {rs : List Out}
    (hs : q.st.run C S ((Kof C L ds uuid cs fld).row T n (Kof C L ds uuid cs fld).m) = .ok (st', rs)) :
    ∃ q', saveStep C S T L ds uuid cs fld n q = .ok q' ∧ q'.st = st' := by
  rw [kof_row_chunks] at hs
  refine loop_calls (C := C) (S := S) _ _ _ (fun c hc q st' rs hq => ?_) q st' rs hs
  exact h.saveChunk hC hn (List.mem_zipIdx_iff_getElem?.1 hc) q hq

theorem all_eq_flatMap (K : Cols) (T : Nat) : ∀ N, K.all T N = (List.range N).flatMap fun n => K.row T n K.m
  | 0 => rfl
  | N + 1 => by
      rw [List.range_succ, List.flatMap_append, ← all_eq_flatMap K T N]
      simp [Cols.all]

theorem SimOk.simulate (hC : C.Ok) (h : SimOk C T L ds uuid cs fld N) (q : SaveState) {st' : MState} {rs : List Out}
    (hs : q.st.run C S ((Kof C L ds uuid cs fld).all T N) = .ok (st', rs)) :
    ∃ q', simulate C S T L ds uuid cs fld N q = .ok q' ∧ q'.st = st' := by
  rw [all_eq_flatMap] at hs
  refine loop_calls (C := C) (S := S) _ _ _ (fun n hn q st' rs hq => ?_) q st' rs hs
  exact h.saveStep hC (List.mem_range.1 hn) q hq

/-! ### Specification -/

/-- The chunks `ps` of a library are, in this order, for each `q` with `q * T < N` the spatial boxes over the times `[q * T, min ((q + 1) * T) N)`. -/
structure TimeTiled (T N : Nat) (boxes : List (List Nat × List Nat)) (ps : List Piece) : Prop where
  count : ps.length = (N + T - 1) / T * boxes.length
  at_ : ∀ q, q * T < N → ∀ (k : Nat) (b : List Nat × List Nat), boxes[k]? = some b →
    ∃ p : Piece, ps[q * boxes.length + k]? = some p ∧ p.start = (q * T) :: b.1 ∧ p.stop = min ((q + 1) * T) N :: b.2 ∧ p.overlap = 0

/-- The spatial boxes divide the stored parts of the simulation chunks: an element of the storage grid is in a box iff it is an element of a chunk on the fine
    grid, no two boxes overlap, and no box is empty or longer than `L`. -/
structure SpaceTiled (L : Nat) (ds : List Nat) (cs : List SimChunk) (boxes : List (List Nat × List Nat)) : Prop where
  cover : ∀ j, (∃ b ∈ boxes, InBox b.1 b.2 j) ↔ j.length = ds.length ∧ ∃ c ∈ cs, InBox c.start (addVec c.start c.shape) (onFine j ds)
  apart : boxes.Pairwise fun b b' => DisjointBox b.1 b.2 b'.1 b'.2
  size : ∀ b ∈ boxes, b.1.length = ds.length ∧ b.2.length = ds.length ∧ ∀ d < ds.length, b.1.getD d 0 < b.2.getD d 0 ∧ b.2.getD d 0 ≤ b.1.getD d 0 + L

/-! ### Proof -/

theorem sinv_begin {w : World} {K : Cols} (hT : 0 < T) {dir : Nat} (hw : w.cur = some ⟨dir, 0, []⟩) : SInv C K T 0 0 dir w ⟨dir, 0, []⟩ :=
  ⟨hw, rfl, rfl, by simp, fun j p e => by simp at e⟩

theorem SimOk.column (h : SimOk C T L ds uuid cs fld N) {r : Nat} {c : SimChunk} (hr : cs[r]? = some c) {j : List Nat} (hl : j.length = ds.length)
    (hj : InBox c.start (addVec c.start c.shape) (onFine j ds)) :
    ∃ x ∈ colsOf L ds cs, InBox (colLo ds x) (colHi ds x) j ∧ x.1 = (c, r) := by
  have hc : c ∈ cs := List.mem_of_getElem? hr
  obtain ⟨c1, c2, c3, c4, c5, c6, c7⟩ := h.coarse hc
  have hin := (c5 j hl).2 hj
  obtain ⟨hv, _⟩ := valid_of_inBox hin
  obtain ⟨b, hb, hi⟩ := ((h.boxes hc).2.1 _).1 hv
  obtain ⟨i, hi'⟩ := List.getElem?_of_mem hb
  have hbi := (h.boxes hc).1 b hb
  refine ⟨((c, r), (b, i)), mem_cols_iff.2 ⟨hr, hi'⟩, ?_, rfl⟩
  refine (inBox_shift (hbi.loLen.trans c1.symm) (hbi.hiLen.trans c1.symm)).2 ⟨by omega, fun d hd => ?_, hi⟩
  exact (hin.2.2 d (by omega)).1

theorem SimOk.space (h : SimOk C T L ds uuid cs fld N) : SpaceTiled L ds cs ((colsOf L ds cs).map fun x => (colLo ds x, colHi ds x)) := by
  refine ⟨fun j => ⟨?_, ?_⟩, ?_, ?_⟩
  · rintro ⟨b, hb, hj⟩
    obtain ⟨x, hx, rfl⟩ := List.mem_map.1 hb
    obtain ⟨b1, b2, b3, b4, _⟩ := h.colBox hx
    have hc : x.1.1 ∈ cs := List.mem_of_getElem? (mem_cols hx).1
    have hl : j.length = ds.length := by rw [hj.1]; exact b1
    exact ⟨hl, x.1.1, hc, ((h.coarse hc).2.2.2.2.1 j hl).1 (b4 j hj).1⟩
  · rintro ⟨hl, c, hc, hj⟩
    obtain ⟨r, hr⟩ := List.getElem?_of_mem hc
    obtain ⟨x, hx, h1, _⟩ := h.column hr hl hj
    exact ⟨_, List.mem_map.2 ⟨x, hx, rfl⟩, h1⟩
  · rw [List.pairwise_map]
    exact h.colsApart.imp fun hxy => hxy.1
  · intro b hb
    obtain ⟨x, hx, rfl⟩ := List.mem_map.1 hb
    obtain ⟨b1, b2, b3, _⟩ := h.colBox hx
    exact ⟨b1, b2, fun d hd => ⟨(b3 d hd).1, (b3 d hd).2.2⟩⟩

theorem div_ceil {N T : Nat} (hT : 0 < T) : (N + T - 1) / T = if N % T = 0 then N / T else N / T + 1 := by
  have e := div_mod_of_div (j := N) hT
  have hm := Nat.mod_lt N hT
  split
  · rename_i h0
    rw [show N + T - 1 = (T - 1) + N / T * T by omega, Nat.add_mul_div_right _ _ hT, Nat.div_eq_of_lt (by omega), Nat.zero_add]
  · rename_i h0
    rw [show N + T - 1 = (N % T - 1) + (N / T + 1) * T by rw [Nat.add_mul]; omega, Nat.add_mul_div_right _ _ hT, Nat.div_eq_of_lt (by omega), Nat.zero_add]

/-- Everything that is known after the last step. -/
theorem SimOk.final (hC : C.Ok) (S : Sorter) (Z : SlabSize) {fs : FS} (hfs : ∀ d, fs (d, .index) = none) (dir : Nat) (init : List Nat) (h : SimOk C T L ds uuid cs fld N) (a0 a1 : Arr) :
    ∃ (st0 : MState) (q : SaveState) (rs : List Out) (l : LibSpec),
      MState.run C S ⟨none, fs⟩ [.open dir init] = .ok (st0, [.unit]) ∧
      Meep.simulate C S T L ds uuid cs fld N ⟨a0, a1, st0⟩ = .ok q ∧
      MState.run C S ⟨none, fs⟩ (.open dir init :: (Kof C L ds uuid cs fld).all T N) = .ok (q.st, rs) ∧
      AllLegal C (World.init fs) (.open dir init :: (Kof C L ds uuid cs fld).all T N) ∧
      SInv C (Kof C L ds uuid cs fld) T N 0 dir ((World.init fs).run C (.open dir init :: (Kof C L ds uuid cs fld).all T N)) l := by
  have hK := h.cols hC
  have hw : ((World.init fs).next C (.open dir init)).cur = some ⟨dir, 0, []⟩ := rfl
  obtain ⟨l1, l, hs⟩ := sinv_all hK (sinv_begin (C := C) h.posT hw) N (Nat.le_refl N)
  have hopen : AllLegal C (World.init fs) [.open dir init] := ⟨⟨rfl, by show ([] : List Piece).length < 2 ^ 64; decide⟩, trivial⟩
  have hlegal : AllLegal C (World.init fs) (.open dir init :: (Kof C L ds uuid cs fld).all T N) := ⟨hopen.1, l1⟩
  obtain ⟨st0, r0, o1, o2, _⟩ := runW_ok (S := S) (Z := Z) hC [.open dir init] (WInv.init hfs) hopen
  obtain ⟨st, rs, e1, _, _⟩ := runW_ok (S := S) (Z := Z) hC _ (WInv.init hfs) hlegal
  have hr0 : r0 = [.unit] := by
    match r0, o2 with
    | [x], ho => have hx : x = .unit := ho.1; rw [hx]
  subst hr0
  have e2 := MState.run_append C S [.open dir init] ((Kof C L ds uuid cs fld).all T N) _ _ _ o1
  have e1' : MState.run C S ⟨none, fs⟩ ([.open dir init] ++ (Kof C L ds uuid cs fld).all T N) = .ok (st, rs) := e1
  rw [e2] at e1'
  obtain ⟨y, e3, e4⟩ := Res.bind_eq_ok.1 e1'
  cases e4
  obtain ⟨q, g1, g2⟩ := h.simulate hC (S := S) ⟨a0, a1, st0⟩ e3
  exact ⟨st0, q, _, l, o1, g1, by rw [g2]; exact e1, hlegal, hs⟩

theorem SInv.tiled {K : Cols} {boxes : List (List Nat × List Nat)} (hm : K.m = boxes.length) (hb : ∀ k b, boxes[k]? = some b → K.lo k = b.1 ∧ K.hi k = b.2) {w : World} {l : LibSpec} {dir : Nat}
    (hT : 0 < T) (h : SInv C K T N 0 dir w l) : TimeTiled T N boxes l.pieces := by
  have hc : l.pieces.length = (N + T - 1) / T * boxes.length := by
    rw [h.len, hm, div_ceil hT]
    by_cases h0 : N % T = 0
    · rw [if_pos h0, if_pos h0, Nat.add_zero]
    · rw [if_neg h0, if_neg h0]
  refine ⟨hc, fun q hq k b e => ?_⟩
  have hk := lt_of_get? e
  have hqc : q < (N + T - 1) / T := by
    rw [div_ceil hT]
    have e := div_mod_of_div (j := N) hT
    have hle : q * T ≤ N := by omega
    have hq1 : q ≤ N / T := (Nat.le_div_iff_mul_le hT).2 hle
    split
    · rename_i h0
      rcases Nat.lt_or_ge q (N / T) with hh | hh
      · exact hh
      · have : q = N / T := by omega
        subst this; omega
    · omega
  have hlt : q * boxes.length + k < l.pieces.length := by
    rw [hc]
    have : (q + 1) * boxes.length ≤ (N + T - 1) / T * boxes.length := Nat.mul_le_mul_right _ hqc
    rw [Nat.add_mul] at this
    omega
  have hp := h.get _ _ (List.getElem?_eq_getElem hlt)
  have hdiv : (q * boxes.length + k) / K.m = q := by
    rw [hm, Nat.mul_comm, Nat.mul_add_div (by omega), Nat.div_eq_of_lt hk, Nat.add_zero]
  have hmod : (q * boxes.length + k) % K.m = k := by
    rw [hm, Nat.mul_comm, Nat.mul_add_mod, Nat.mod_eq_of_lt hk]
  rw [hdiv, hmod, if_neg (by omega)] at hp
  refine ⟨_, List.getElem?_eq_getElem hlt, ?_, ?_, hp.overlap⟩
  · rw [hp.start, (hb k b e).1]
  · rw [hp.stop, (hb k b e).2]

/-- The chunk in which the value of column `x` at time `n` is found. -/
theorem SInv.find {w : World} {l : LibSpec} {dir : Nat} (h : SimOk C T L ds uuid cs fld N) (hs : SInv C (Kof C L ds uuid cs fld) T N 0 dir w l) {n : Nat} (hn : n < N) {x : Col}
    (hx : x ∈ colsOf L ds cs) {j : List Nat} (hj : InBox (colLo ds x) (colHi ds x) j) :
    ∃ p ∈ l.pieces, InBox p.start p.stop (n :: j) ∧ p.val (n :: j) = elemOr ((Meep.colSlice C ds fld n x).get C.vd (0 :: subVec j (colLo ds x))) ∧ p.overlap = 0 := by
  have hT := h.posT
  obtain ⟨k, hk⟩ := List.getElem?_of_mem hx
  have hkm := lt_of_get? hk
  have hm : (Kof C L ds uuid cs fld).m = (colsOf L ds cs).length := rfl
  have e := div_mod_of_div (j := n) hT
  have hmT := Nat.mod_lt n hT
  have hlt : n / T * (colsOf L ds cs).length + k < l.pieces.length := by
    have hl := hs.len
    rw [hl, hm]
    have hq : n / T ≤ N / T := Nat.div_le_div_right (by omega)
    split
    · rename_i h0
      have hq' : n / T < N / T := by
        rcases Nat.lt_or_ge (n / T) (N / T) with hh | hh
        · exact hh
        · have e2 := div_mod_of_div (j := N) hT
          have : n / T = N / T := by omega
          rw [this] at e; omega
      have : (n / T + 1) * (colsOf L ds cs).length ≤ N / T * (colsOf L ds cs).length := Nat.mul_le_mul_right _ hq'
      rw [Nat.add_mul] at this
      omega
    · have : (n / T + 1) * (colsOf L ds cs).length ≤ (N / T + 1) * (colsOf L ds cs).length := Nat.mul_le_mul_right _ (by omega)
      rw [Nat.add_mul] at this
      omega
  have hp := hs.get _ _ (List.getElem?_eq_getElem hlt)
  have hdiv : (n / T * (colsOf L ds cs).length + k) / (Kof C L ds uuid cs fld).m = n / T := by
    rw [hm, Nat.mul_comm, Nat.mul_add_div (by omega), Nat.div_eq_of_lt hkm, Nat.add_zero]
  have hmod : (n / T * (colsOf L ds cs).length + k) % (Kof C L ds uuid cs fld).m = k := by
    rw [hm, Nat.mul_comm, Nat.mul_add_mod, Nat.mod_eq_of_lt hkm]
  rw [hdiv, hmod, if_neg (by omega)] at hp
  have hlo : (Kof C L ds uuid cs fld).lo k = colLo ds x := atCol_some hk _ _
  have hhi : (Kof C L ds uuid cs fld).hi k = colHi ds x := atCol_some hk _ _
  have hsl : (Kof C L ds uuid cs fld).slice n k = Meep.colSlice C ds fld n x := atCol_some hk _ _
  have hin : InBox l.pieces[n / T * (colsOf L ds cs).length + k].start l.pieces[n / T * (colsOf L ds cs).length + k].stop (n :: j) := by
    rw [hp.start, hp.stop, hlo, hhi, Nat.add_mul]
    exact inBox_cons.2 ⟨by omega, hj⟩
  refine ⟨_, List.getElem_mem hlt, hin, ?_, hp.overlap⟩
  rw [hp.val n j hin, hlo, hsl]

/-- **C45.** For every number of steps, calculation chunk size, division of the storage domain among simulation chunks, downsampling factor and field, the
    saving of the time steps succeeds. Afterwards the chunks of the library are, for every `q` with `q * T < N`, the boxes of a division of the stored part over the
    times `[q * T, min ((q + 1) * T) N)`: chunks have the length `T` in time except for the last, and there are no gaps or overlaps. The element at time index `n`
    and a place of the storage grid is the element of the field at step `n` at this place of the fine grid. The calls made are allowed ones, so that everything
    proved about histories of the library (closing, reopening, exchanging axes, moving, importing) applies to what comes later. -/
theorem C45_time_slices (C : Cfg) (hC : C.Ok) (S : Sorter) (Z : SlabSize) (fs : FS) (hfs : ∀ d, fs (d, .index) = none) (dir : Nat) (init : List Nat)
    (T L : Nat) (ds : List Nat) (uuid : Nat → Nat → Nat → List Nat) (cs : List SimChunk) (fld : Nat → Nat → List Nat) (N : Nat)
    (h : SimOk C T L ds uuid cs fld N) (proc chunk : Arr) :
    ∃ (st0 : MState) (q : SaveState) (ops : List LOp) (rs : List Out) (l : LibSpec) (boxes : List (List Nat × List Nat)),
      MState.run C S ⟨none, fs⟩ [.open dir init] = .ok (st0, [.unit]) ∧
      simulate C S T L ds uuid cs fld N ⟨proc, chunk, st0⟩ = .ok q ∧
      MState.run C S ⟨none, fs⟩ (.open dir init :: ops) = .ok (q.st, rs) ∧
      AllLegal C (World.init fs) (.open dir init :: ops) ∧
      ((World.init fs).run C (.open dir init :: ops)).cur = some l ∧ l.dir = dir ∧
      SpaceTiled L ds cs boxes ∧ TimeTiled T N boxes l.pieces ∧
      ∀ n < N, ∀ r c, cs[r]? = some c → ∀ j, j.length = ds.length → InBox c.start (addVec c.start c.shape) (onFine j ds) →
        ∃ u v st, read C.vd (mkHdr C.vd (1 :: c.shape)) (fld n r) (0 :: subVec (onFine j ds) c.start) = .ok u ∧
          q.st.step C S (.get (n :: j)) = .ok (st, .vec v) ∧ VEq u v := by
  obtain ⟨st0, q, rs, l, e1, e2, e3, e4, e5⟩ := h.final hC S Z hfs dir init proc chunk
  refine ⟨st0, q, _, rs, l, (colsOf L ds cs).map fun x => (colLo ds x, colHi ds x), e1, e2, e3, e4, e5.cur, e5.dir, h.space, ?_, ?_⟩
  · refine e5.tiled (by simp [Kof]) (fun k b hb => ?_) h.posT
    rw [List.getElem?_map] at hb
    cases hx : (colsOf L ds cs)[k]? with
    | none => rw [hx] at hb; cases hb
    | some x =>
      rw [hx] at hb
      cases hb
      exact ⟨atCol_some hx _ _, atCol_some hx _ _⟩
  · intro n hn r c hr j hl hj
    obtain ⟨x, hx, hj', hxc⟩ := h.column hr hl hj
    obtain ⟨p, hp, hin, hval, hov⟩ := e5.find h hn hx hj'
    obtain ⟨_, _, _, s4⟩ := h.colSlice hC hn hx
    obtain ⟨u, u1, u2⟩ := s4 j hj'
    rw [hxc] at u2
    rw [u1] at hval
    obtain ⟨st', rs', g1, _, g3⟩ := runW_ok (S := S) (Z := Z) hC _ (WInv.init hfs) e4
    rw [e3] at g1
    cases g1
    obtain ⟨st, out, k1, k2, _⟩ := stepW_ok hC g3 (.get (n :: j)) ⟨l, p, e5.cur, hp, hin, fun _ => hov⟩
    cases out with
    | vec v =>
      have := k2 l e5.cur p hp hin
      rw [hval] at this
      exact ⟨u, v, st, u2, k1, this⟩
    | unit => exact k2.elim
    | buf b => exact k2.elim
    | ind b => exact k2.elim
    | num b => exact k2.elim
    | calls b => exact k2.elim

/-! ### The hypotheses are met -/

namespace Ex45

/-- Two vector components, three axes. -/
def cfg : Cfg := ⟨.little, 2, 3, [1, 2 ^ 64 - 1, 2 ^ 64 - 1], 0, fun _ => 77⟩

/-- Two simulation chunks side by side. -/
def chunks : List SimChunk := [⟨[0, 0], [5, 3]⟩, ⟨[0, 3], [5, 4]⟩]

def field (n r : Nat) : List Nat := List.replicate (if r = 0 then 30 else 40) (n + 1)

/-- Five steps, chunks of two steps, boxes of edge length 2 at most, every second element along `z` and every third along `r`. -/
theorem ok : SimOk cfg 2 2 [2, 3] (fun n r b => [n, r, b]) chunks field 5 := by
  refine ⟨rfl, rfl, by decide, by decide, ?_, ?_, ?_, ?_, by decide, fun n r b => ⟨by simp, by simp⟩, ?_, by decide, by decide⟩
  · intro c hc
    rcases (by simpa [chunks] using hc : c = _ ∨ c = _) with rfl | rfl <;>
      exact ⟨rfl, ⟨rfl, rfl⟩, by decide, by decide, by decide⟩
  · intro c hc
    rcases (by simpa [chunks] using hc : c = _ ∨ c = _) with rfl | rfl <;> decide
  · refine List.Pairwise.cons ?_ (List.pairwise_singleton _ _)
    intro c hc
    have : c = ⟨[0, 3], [5, 4]⟩ := by simpa using hc
    subst this
    intro i hi
    have h1 := hi.1.2.2 1 (by rw [hi.1.1]; decide)
    have h2 := hi.2.2.2 1 (by rw [hi.2.1]; decide)
    have h3 : i.getD 1 0 < 3 := h1.2
    have h4 : 3 ≤ i.getD 1 0 := h2.1
    omega
  · intro n hn r c hr
    have hw : ∀ w ∈ field n r, w < 2 ^ 32 := by
      intro w hw
      have := List.eq_of_mem_replicate hw
      omega
    refine ⟨?_, hw⟩
    match r, hr with
    | 0, hr => cases hr; rfl
    | 1, hr => cases hr; rfl
    | r + 2, hr => simp [chunks] at hr
  · intro n r b n' r' b' he
    simpa using he

theorem cfg_ok : cfg.Ok := ⟨by decide, by decide, rfl, by unfold Small; decide, by decide, by decide⟩

/-- The boxes: two for the first chunk, which has one coarse element along `r`, and two for the second, which has two. -/
example : (colsOf 2 [2, 3] chunks).map (fun x => (colLo [2, 3] x, colHi [2, 3] x)) = [([0, 0], [2, 1]), ([2, 0], [3, 1]), ([0, 1], [2, 3]), ([2, 1], [3, 3])] := by decide +kernel

end Ex45

end Verif.Meep
