import Verif.Analytic.Calc
import Verif.Green.Loaded
/-
Proofs about the calculation of the Green's function of a dipole.
-/
set_option linter.unusedSectionVars false
namespace Verif.Analytic
open Verif Verif.ND Verif.Dist Verif.Tree Verif.Bytes Verif.Ops Verif.Rebuild Verif.Green

variable {K : Type} [Field K] [LinearOrder K] [IsStrictOrderedRing K] [FloorSemiring K]
variable {C : Cfg} {S : Sorter} {Z : SlabSize}

/-- What is stored for the grid point `i`. -/
def sample (F : Fns K) (D : Dipole K) (enc : Option K → Nat) (start step : List K) (i : List Nat) : List Nat :=
  (fieldAt F D ((gridPt start step i).getD 0 0) ((gridPt start step i).getD 1 0) ((gridPt start step i).getD 2 0)).map enc

theorem length_sample (F : Fns K) (D : Dipole K) (enc : Option K → Nat) (start step : List K) (i : List Nat) : (sample F D enc start step i).length = 2 := rfl

theorem gridPt_getD {start step : List K} {i : List Nat} (h1 : start.length = step.length) (h2 : i.length = step.length) {d : Nat} (hd : d < step.length) :
    (gridPt start step i).getD d 0 = start.getD d 0 + step.getD d 0 * (i.getD d 0 : K) := by
  unfold gridPt
  simp only [List.getD_eq_getElem?_getD]
  rw [List.getElem?_zipWith, List.getElem?_zipWith, List.getElem?_eq_getElem (by omega : d < start.length), List.getElem?_eq_getElem hd, List.getElem?_eq_getElem (by omega : d < i.length)]
  rfl

theorem length_gridPt {start step : List K} {i : List Nat} (h1 : start.length = step.length) (h2 : i.length = step.length) : (gridPt start step i).length = step.length := by
  unfold gridPt
  simp only [List.length_zipWith]
  omega

/-- The point `i` of the grid that starts at the point `b` is the point `b + i`. -/
theorem gridPt_add {start step : List K} {b i : List Nat} (h1 : start.length = step.length) (h2 : b.length = step.length) (h3 : i.length = step.length) {d : Nat} (hd : d < step.length) :
    (gridPt (gridPt start step b) step i).getD d 0 = (gridPt start step (addVec b i)).getD d 0 := by
  rw [gridPt_getD (length_gridPt h1 h2) h3 hd, gridPt_getD h1 h2 hd, gridPt_getD h1 (by rw [addVec_length (by omega)]; exact h2) hd, getD_addVec (by omega)]
  push_cast
  ring

theorem sample_add (F : Fns K) (D : Dipole K) (enc : Option K → Nat) {start step : List K} {b i : List Nat} (h0 : step.length = 3) (h1 : start.length = step.length) (h2 : b.length = step.length)
    (h3 : i.length = step.length) : sample F D enc (gridPt start step b) step i = sample F D enc start step (addVec b i) := by
  unfold sample
  rw [gridPt_add h1 h2 h3 (by omega), gridPt_add h1 h2 h3 (by omega), gridPt_add h1 h2 h3 (by omega)]

/-- The buffer is filled. -/
theorem evalChunk_ok (F : Fns K) (D : Dipole K) (enc : Option K → Nat) (start step : List K) {a : Arr} (hs : Small a.shape) (hd : 0 < a.shape.length) (hb : a.buf.length = volume 2 a.shape) :
    ∃ a', evalChunk F D enc start step a = .ok a' ∧ a'.shape = a.shape ∧ a'.buf.length = volume 2 a.shape ∧ ∀ i, ValidInd a.shape i → a'.get 2 i = .ok (sample F D enc start step i) := by
  obtain ⟨calls, c1, c2, c3, c4⟩ := C09_index_loop 2 a.shape _ (mkHdr 2 a.shape) hs ViewOf.own a.buf hb (a.shape.map fun _ => 0) a.shape (by simpa using hd) (by simp) ⟨rfl, fun d _ => Nat.le_refl _⟩
  have hval : ∀ i, i ∈ calls.map Prod.fst ↔ ValidInd a.shape i := fun i => (c3 i).trans inBox_zero_iff
  obtain ⟨b, r1, r2, r3, _⟩ := runWrites (vd := 2) hs ((calls.map Prod.fst).map fun i => (i, sample F D enc start step i)) a.buf hb (fun x hx => by
      obtain ⟨i, hi, rfl⟩ := List.mem_map.1 hx
      exact ⟨(hval i).1 hi, rfl⟩) (by
      rw [List.map_map]
      have : (Prod.fst ∘ fun i => (i, sample F D enc start step i)) = (id : List Nat → List Nat) := rfl
      rw [this, List.map_id]
      exact c2.imp fun h e => by subst e; exact lexLt_irrefl _ h)
  rw [runLoop_map] at r1
  refine ⟨⟨a.shape, b⟩, ?_, rfl, by rw [r2]; exact hb, fun i hi => ?_⟩
  · unfold evalChunk indexLoopAll
    have c1' : indexLoop 2 (a.hdr 2) a.buf ((a.hdr 2).shape.map fun _ => 0) (a.hdr 2).shape = .ok calls := c1
    rw [c1', Res.ok_bind]
    have r1' : runLoop (fun (i : List Nat) d => ND.write 2 (a.hdr 2) d i ((fieldAt F D ((gridPt start step i).getD 0 0) ((gridPt start step i).getD 1 0) ((gridPt start step i).getD 2 0)).map enc))
        (calls.map Prod.fst) a.buf = .ok b := r1
    rw [r1', Res.ok_bind]
  · exact r3 _ (List.mem_map.2 ⟨i, (hval i).2 hi, rfl⟩)

/-- Every number in the buffer belongs to an element of the array. -/
theorem mem_elem {vd : Nat} (hvd : 0 < vd) {a : Arr} (ha : a.buf.length = volume vd a.shape) {w : Nat} (hw : w ∈ a.buf) : ∃ i, ValidInd a.shape i ∧ ∃ v, a.get vd i = .ok v ∧ w ∈ v := by
  obtain ⟨x, hx, rfl⟩ := List.mem_iff_getElem.1 hw
  have hx' := hx
  rw [ha, volume_eq, Nat.mul_comm] at hx'
  obtain ⟨i, hi, he⟩ := lin_surj a.shape (x / vd) (Nat.div_lt_of_lt_mul hx')
  refine ⟨i, hi, _, read_own ha hi, ?_⟩
  rw [he]
  have hm := Nat.div_add_mod x vd
  have hlt := Nat.mod_lt x hvd
  apply List.mem_iff_getElem?.2
  refine ⟨x % vd, ?_⟩
  rw [List.getElem?_take, if_pos hlt, List.getElem?_drop, hm, List.getElem?_eq_getElem hx]

/-- The pieces are those of the boxes `done`, with the samples at the grid points. -/
structure Filling (C : Cfg) (S : Sorter) (Z : SlabSize) (val : List Nat → List Nat) (uuid : Nat → List Nat) (dir : Nat) (w0 : World) (done : List (List Nat × List Nat)) (st : CState) (w : World)
    (l : LibSpec) : Prop where
  inv : WInv C S Z ⟨some st.lib, st.fs⟩ w
  cur : w.cur = some l
  dir : l.dir = dir
  next : l.next = done.length
  boxes : l.pieces.map (fun p => (p.start, p.stop)) = done
  piece : ∀ p ∈ l.pieces, p.overlap = 0 ∧ (∃ j < done.length, p.file = uuid j) ∧ p.id < done.length ∧ ∀ i, InBox p.start p.stop i → p.val i = val i
  disk : w.disk = w0.disk
  k : st.k = done.length

theorem fill_one (hC : C.Ok) (hd3 : C.dims = 3) (hv2 : C.vd = 2) (F : Fns K) (D : Dipole K) (enc : Option K → Nat) (henc : ∀ x, enc x < 2 ^ 32) {start step : List K} (h1 : start.length = 3)
    (h2 : step.length = 3) {uuid : Nat → List Nat} (hu : ∀ k, uuid k ≠ [] ∧ (uuid k).length < 2 ^ 64 ∧ ∀ j, j ≠ k → uuid j ≠ uuid k) {dir : Nat} {w0 w : World}
    {done : List (List Nat × List Nat)} {st : CState} {l : LibSpec} (h : Filling C S Z (sample F D enc start step) uuid dir w0 done st w l) {box : List Nat × List Nat}
    (hl1 : box.1.length = 3) (hl2 : box.2.length = 3) (hlt : ∀ d < 3, box.1.getD d 0 < box.2.getD d 0 ∧ box.2.getD d 0 < 2 ^ 62) (hfit : Fit C (subVec box.2 box.1))
    (hdisj : ∀ q ∈ done, DisjointBox q.1 q.2 box.1 box.2) (hn : done.length + 1 < 2 ^ 64) :
    ∃ st' w' l', fillChunk C S F D enc uuid start step box st = .ok st' ∧ Filling C S Z (sample F D enc start step) uuid dir w0 (done ++ [box]) st' w' l' := by
  have hU : U64 = 2 ^ 64 := rfl
  have hsub : vsub box.2 box.1 = subVec box.2 box.1 := by
    apply ext_getD
    · simp [vsub, subVec]
    · intro d hd
      have hd : d < 3 := by simp [vsub, hl1, hl2] at hd; omega
      have := hlt d hd
      rw [getD_subVec (by omega)]
      unfold vsub
      rw [getD_zipN (by omega) (by omega), wsub_eq (by omega) (by omega)]
  obtain ⟨a, a1, a2, a3, a4⟩ := evalChunk_ok F D enc (gridPt start step box.1) step (a := ⟨subVec box.2 box.1, (List.range (volume 2 (subVec box.2 box.1))).map fun k => st.buf.buf.getD k (C.junk k)⟩)
    (fun x hx => by have := hfit.lt x hx; omega) (by show 0 < (subVec box.2 box.1).length; rw [length_subVec (by omega)]; omega) (by simp)
  have a2' : a.shape = subVec box.2 box.1 := a2
  have a3' : a.buf.length = volume 2 (subVec box.2 box.1) := a3
  have a4' : ∀ i, ValidInd (subVec box.2 box.1) i → a.get 2 i = .ok (sample F D enc (gridPt start step box.1) step i) := a4
  have hstop : vadd box.1 a.shape = box.2 := by
    rw [a2']
    apply ext_getD
    · simp [vadd, subVec]; omega
    · intro d hd
      have hd : d < 3 := by simp [vadd, subVec, hl1, hl2] at hd; omega
      have := hlt d hd
      unfold vadd
      rw [getD_zipN (by omega) (by rw [length_subVec (by omega)]; omega), getD_subVec (by omega), wadd_eq (by omega)]
      omega
  have hmp : ∀ p ∈ l.pieces, (p.start, p.stop) ∈ done := fun p hp => by rw [← h.boxes]; exact List.mem_map.2 ⟨p, hp, rfl⟩
  have hcan : CanRegister C l (uuid st.k) a box.1 box.2 0 false := by
    refine ⟨⟨by rw [a2']; exact hfit, by rw [a3', a2', hv2], fun w hw => ?_⟩, by omega, by omega, fun d hd => hlt d (by omega), by omega, by rw [a2']; simp, fun p hp => hdisj _ (hmp p hp),
      ⟨(hu _).1, (hu _).2.1, fun p hp => ?_⟩, fun h => (by cases h), fun p hp => ?_, by rw [h.next]; exact hn⟩
    · obtain ⟨i, hi, v, v1, v2⟩ := mem_elem (vd := 2) (by decide) (a := a) (by rw [a3', a2']) hw
      rw [a2'] at hi
      rw [a4' i hi] at v1
      cases v1
      obtain ⟨y, _, rfl⟩ := List.mem_map.1 v2
      exact henc y
    · obtain ⟨_, ⟨j, hj, e⟩, _⟩ := h.piece p hp
      rw [e, h.k]
      exact (hu _).2.2 j (by omega)
    · have := (h.piece p hp).2.2.1
      rw [h.next]; omega
  obtain ⟨st', r, s1, _, s3⟩ := stepW_ok hC h.inv (.register (uuid st.k) a box.1 box.2 0 false) ⟨l, h.cur, hcan⟩
  unfold MState.step at s1
  obtain ⟨q, q1, q2⟩ := Res.bind_eq_ok.1 s1
  cases q2
  have hw' : w.next C (.register (uuid st.k) a box.1 box.2 0 false) =
      { w with cur := some ⟨l.dir, l.next + 1, l.pieces ++ [newPiece C l.next (uuid st.k) a box.1 box.2 0 false]⟩, names := upd w.names l.dir fun n => w.names l.dir n ∨ n = uuid st.k } := by
    unfold World.next
    rw [h.cur]
  rw [hw'] at s3
  refine ⟨⟨q.1, q.2, a, st.k + 1⟩, _, _, ?_, s3, rfl, h.dir, ?_, ?_, fun p hp => ?_, h.disk, ?_⟩
  · unfold fillChunk
    have e1 : resize 2 (st.buf.hdr 2) st.buf.buf (vsub box.2 box.1) C.junk = .ok (mkHdr 2 (subVec box.2 box.1), (List.range (volume 2 (subVec box.2 box.1))).map fun k => st.buf.buf.getD k (C.junk k)) := by
      rw [hsub]; exact resize_own 2 _ _ _ _
    rw [e1, Res.ok_bind]
    have e2 : evalChunk F D enc (gridPt start step box.1) step ⟨(mkHdr 2 (subVec box.2 box.1)).shape, (List.range (volume 2 (subVec box.2 box.1))).map fun k => st.buf.buf.getD k (C.junk k)⟩ = .ok a := a1
    simp only [e2, Res.ok_bind, hstop, q1]
  · show l.next + 1 = _
    rw [h.next]; simp
  · show (l.pieces ++ [_]).map _ = _
    rw [List.map_append, h.boxes]; rfl
  · rcases List.mem_append.1 hp with hp | hp
    · obtain ⟨p1, ⟨j, hj, p2⟩, p3, p4⟩ := h.piece p hp
      exact ⟨p1, ⟨j, by simp; omega, p2⟩, by simp; omega, p4⟩
    · rw [List.mem_singleton] at hp
      subst hp
      refine ⟨rfl, ⟨done.length, by simp, ?_⟩, by show l.next < _; rw [h.next]; simp, fun i hi => ?_⟩
      · show (if (false && a.null) = true then [] else uuid st.k) = _
        rw [h.k]; rfl
      · have hi : InBox box.1 box.2 i := hi
        have hv : ValidInd (subVec box.2 box.1) (subVec i box.1) := inBox_sub hi
        have hil : i.length = 3 := by have := hi.1; omega
        show elemOr (a.get C.vd ((subVec i box.1).map (· + 0))) = _
        have e0 : (subVec i box.1).map (· + 0) = subVec i box.1 := by simp
        rw [e0, hv2, a4' _ hv]
        show sample F D enc (gridPt start step box.1) step (subVec i box.1) = _
        rw [sample_add F D enc h2 (by omega) (by omega) (by rw [length_subVec (by omega)]; omega)]
        congr 1
        apply ext_getD
        · rw [addVec_length (by rw [length_subVec (by omega)]; omega)]; omega
        · intro d hd
          rw [addVec_length (by rw [length_subVec (by omega)]; omega)] at hd
          have := hi.2.2 d (by omega)
          rw [getD_addVec (by rw [length_subVec (by omega)]; omega), getD_subVec (by omega)]
          omega
  · show st.k + 1 = _
    rw [h.k]; simp

theorem fill_loop (hC : C.Ok) (hd3 : C.dims = 3) (hv2 : C.vd = 2) (F : Fns K) (D : Dipole K) (enc : Option K → Nat) (henc : ∀ x, enc x < 2 ^ 32) {start step : List K} (h1 : start.length = 3)
    (h2 : step.length = 3) {uuid : Nat → List Nat} (hu : ∀ k, uuid k ≠ [] ∧ (uuid k).length < 2 ^ 64 ∧ ∀ j, j ≠ k → uuid j ≠ uuid k) {dir : Nat} {w0 : World} :
    ∀ (rest done : List (List Nat × List Nat)) (st : CState) (w : World) (l : LibSpec), Filling C S Z (sample F D enc start step) uuid dir w0 done st w l →
      (∀ box ∈ rest, box.1.length = 3 ∧ box.2.length = 3 ∧ (∀ d < 3, box.1.getD d 0 < box.2.getD d 0 ∧ box.2.getD d 0 < 2 ^ 62) ∧ Fit C (subVec box.2 box.1)) →
      (done ++ rest).Pairwise (fun p q => DisjointBox p.1 p.2 q.1 q.2) → (done ++ rest).length < 2 ^ 64 →
      ∃ st' w' l', runLoop (fillChunk C S F D enc uuid start step) rest st = .ok st' ∧ Filling C S Z (sample F D enc start step) uuid dir w0 (done ++ rest) st' w' l'
  | [], done, st, w, l, h, _, _, _ => ⟨st, w, l, rfl, by rw [List.append_nil]; exact h⟩
  | box :: rest, done, st, w, l, h, hb, hd, hn => by
      obtain ⟨b1, b2, b3, b4⟩ := hb box List.mem_cons_self
      obtain ⟨st1, w1, l1, e1, e2⟩ := fill_one hC hd3 hv2 F D enc henc h1 h2 hu h b1 b2 b3 b4 (fun q hq => (List.pairwise_append.1 hd).2.2 q hq box List.mem_cons_self) (by simp at hn; omega)
      have ea : done ++ box :: rest = (done ++ [box]) ++ rest := by simp
      rw [ea] at hd hn ⊢
      obtain ⟨st2, w2, l2, f1, f2⟩ := fill_loop hC hd3 hv2 F D enc henc h1 h2 hu rest (done ++ [box]) st1 w1 l1 e2 (fun x hx => hb x (List.mem_cons_of_mem _ hx)) hd hn
      exact ⟨st2, w2, l2, by rw [runLoop, e1, Res.ok_bind]; exact f1, f2⟩

/-! ### The whole calculation -/

theorem dipCfg_ok (hst : Host) (junk : Nat → Nat) : (dipCfg hst junk).Ok := by
  refine ⟨by show 0 < 2; decide, by show 0 < 3; decide, rfl, ?_, ?_, by show 1 < 2 ^ 63; decide⟩
  · show ∀ x ∈ [1, 2 ^ 64 - 1, 2 ^ 64 - 1], x < 2 ^ 64
    decide
  · show ∀ x ∈ [1, 2 ^ 64 - 1, 2 ^ 64 - 1], 0 < x
    decide

theorem dipCfg_chunk (hst : Host) (junk : Nat → Nat) : (dipCfg hst junk).chunk = (outCfg (dipCfg hst junk)).chunk := rfl

/-- The number of steps and the step size along an axis of length `L` with requested step `req`. -/
theorem axisOf_ok {lo hi req : K} (hr : 0 < req) (h1 : req ≤ hi - lo) (h2 : hi - lo < 2 ^ 30 * req) :
    ∃ n : Nat, axisOf lo hi req = .ok (n, (hi - lo) / n) ∧ 0 < n ∧ n < 2 ^ 30 ∧ (n : K) * req ≤ hi - lo ∧ hi - lo < ((n : K) + 1) * req := by
  have hx1 : 1 ≤ (hi - lo) / req := by rw [le_div_iff₀ hr]; linarith
  have hx2 : (hi - lo) / req < 2 ^ 30 := by rw [div_lt_iff₀ hr]; exact h2
  have hx0 : 0 ≤ (hi - lo) / req := le_trans zero_le_one hx1
  have hn1 : 0 < ⌊(hi - lo) / req⌋₊ := Nat.floor_pos.2 hx1
  have hn2 : ⌊(hi - lo) / req⌋₊ < 2 ^ 30 := by
    rw [Nat.floor_lt hx0]
    have e : (((2 : Nat) ^ 30 : Nat) : K) = 2 ^ 30 := by norm_num
    rw [e]; exact hx2
  have hfl := Nat.floor_le hx0
  have hlt := Nat.lt_floor_add_one ((hi - lo) / req)
  rw [le_div_iff₀ hr] at hfl
  rw [div_lt_iff₀ hr] at hlt
  refine ⟨_, ?_, hn1, hn2, hfl, hlt⟩
  have hnK : ((⌊(hi - lo) / req⌋₊ : Nat) : K) ≠ 0 := Nat.cast_ne_zero.2 hn1.ne'
  have h30 : (2 : K) ^ 30 ≤ 2 ^ 64 := pow_le_pow_right₀ (by norm_num) (by norm_num)
  unfold axisOf fdiv toSize
  rw [if_neg hr.ne', Res.ok_bind, if_neg (by
    rintro (h | h)
    · linarith
    · linarith), Res.ok_bind, if_neg hnK]
  rfl

/-- Names of files, none of which is repeated. -/
def FreshNames (uuid : Nat → List Nat) : Prop := ∀ k, uuid k ≠ [] ∧ (uuid k).length < 2 ^ 64 ∧ ∀ j, j ≠ k → uuid j ≠ uuid k

theorem storable3 {hst : Host} {junk : Nat → Nat} {sh : List Nat} (hl : sh.length = 3) (h : ∀ d < 3, sh.getD d 0 < 2 ^ 16) : Storable (dipCfg hst junk) sh := by
  match sh, hl with
  | [a, b, c], _ =>
    have ha : a < 2 ^ 16 := h 0 (by omega)
    have hb : b < 2 ^ 16 := h 1 (by omega)
    have hc : c < 2 ^ 16 := h 2 (by omega)
    have hbc : b * c ≤ (2 ^ 16 - 1) * (2 ^ 16 - 1) := Nat.mul_le_mul (by omega) (by omega)
    have habc : a * (b * c) ≤ (2 ^ 16 - 1) * ((2 ^ 16 - 1) * (2 ^ 16 - 1)) := Nat.mul_le_mul (by omega) hbc
    refine ⟨rfl, fun x hx => ?_, ?_, ?_⟩
    · simp only [List.mem_cons, List.not_mem_nil, or_false] at hx
      rcases hx with rfl | rfl | rfl <;> omega
    · show volume 2 [a, b, c] < 2 ^ 62
      rw [volume_eq]
      simp only [prod, Nat.mul_one]
      omega
    · show numElems [b, c] < 2 ^ 32
      rw [numElems_eq]
      simp only [prod, Nat.mul_one]
      omega

/-- The chunks that the calculation leaves on disk. -/
structure Result (hst : Host) (junk : Nat → Nat) (val : List Nat → List Nat) (N : List Nat) (req : Nat) (gm : GFMeta) (dir : Nat) (d : Disk) (cs : List (Meta × Arr)) (ps : List Piece) : Prop where
  green : d.green dir = some ((gfMeta hst).ser gm)
  saved : Saved (dipCfg hst junk) d.fs dir cs
  rep : Rep (dipCfg hst junk) cs ps
  len : cs.length < 2 ^ 64
  hull : IsHull 3 ps (List.replicate 3 0) N
  cover : ∀ i, InBox (List.replicate 3 0) N i → ∃ c ∈ cs, InBox c.1.start c.1.stop i
  chunk : ∀ c ∈ cs, c.1.overlap = 2 ∧ BoxOK (List.replicate 3 0) N (List.replicate 3 req) c.1.start c.1.stop ∧ c.1.ctype = .specified ∧ c.2.shape = (subVec c.1.stop c.1.start).map (· + 2 * 2) ∧
    ∀ j, InBoxZ (padStart c.1.start 2) (padEnd c.1.stop 2) j → ∃ v, v.length = 2 ∧ c.2.get 2 (loc (padStart c.1.start 2) j) = .ok v ∧
      (InBoxZ (signed (List.replicate 3 0)) (signed N) j → VEq (val (unsigned j)) v) ∧
      (¬ InBoxZ (signed (List.replicate 3 0)) (signed N) j → 0 ≤ j.getD 0 0 → VEq [0, 0] v) ∧
      (j.getD 0 0 < 0 → InBoxZ (signed (List.replicate 3 0)) (signed N) (mirror j) → VEq (val (unsigned (mirror j))) v)

theorem dipole_core {hst : Host} {junk : Nat → Nat} (hj : ∀ k, junk k < 2 ^ 32) (S : Sorter) (Z : SlabSize) (F : Fns K) (pow2 : K → K) (enc : Option K → Nat) (henc : ∀ x, enc x < 2 ^ 32)
    {uuid uuid' : Nat → List Nat} (hu : FreshNames uuid) (hu' : FreshNames uuid') (P : Params K) {dir tmp : Nat} (hne : tmp ≠ dir) (d : Disk) (hd : ∀ e, e ≠ dir → d.fs (e, .index) = none)
    {hs ht : K} (hreq : reqStep F pow2 P = .ok (hs, ht)) {nr nz nt : Nat} {sr sz st : K} (h1 : axisOf P.r0 P.r1 hs = .ok (nr, sr)) (h2 : axisOf P.z0 P.z1 hs = .ok (nz, sz))
    (h3 : axisOf 0 P.tEnd ht = .ok (nt, st)) (hn : nr < 2 ^ 30 ∧ nz < 2 ^ 30 ∧ nt < 2 ^ 30) (hvol : (nr + 1) * ((nz + 1) * (nt + 1)) < 2 ^ 63) (hm : 0 < P.maxPts ∧ P.maxPts + 4 < 2 ^ 16) :
    ∃ d' cs ps, electricDipole (dipCfg hst junk) S F pow2 enc uuid uuid' P dir tmp d = .ok d' ∧
      Result hst junk (sample F P.dip enc [P.r0, P.z0, 0] [sr, sz, st]) [nr + 1, nz + 1, nt + 1] P.maxPts
        ⟨[P.r0, P.z0, 0].map fun x => enc (some x), [P.r1, P.z1, P.tEnd].map fun x => enc (some x), [sr, sz, st].map fun x => enc (some x)⟩ dir d' cs ps := by
  have hU : U64 = 2 ^ 64 := rfl
  have hC := dipCfg_ok hst junk
  generalize hCe : dipCfg hst junk = C at *
  have hCd : C.dims = 3 := by rw [← hCe]; rfl
  have hCv : C.vd = 2 := by rw [← hCe]; rfl
  have hCh : C.chunk = (outCfg C).chunk := by rw [← hCe]; rfl
  have hCj : C.junk = junk := by rw [← hCe]; rfl
  have hCs : C.hst = hst := by rw [← hCe]; rfl
  have hst3 : ∀ {sh : List Nat}, sh.length = 3 → (∀ d < 3, sh.getD d 0 < 2 ^ 16) → Storable C sh := fun {sh} a b => by rw [← hCe]; exact storable3 a b
  have lt3 : ∀ {Q : Nat → Prop}, Q 0 → Q 1 → Q 2 → ∀ d < 3, Q d := fun a b c d hd => by
    match d, hd with
    | 0, _ => exact a
    | 1, _ => exact b
    | 2, _ => exact c
  generalize hN : [nr + 1, nz + 1, nt + 1] = N
  have hNl : N.length = 3 := by rw [← hN]; rfl
  have hNd : ∀ d < 3, 0 < N.getD d 0 ∧ N.getD d 0 ≤ 2 ^ 30 := by
    rw [← hN]
    exact lt3 (by show 0 < nr + 1 ∧ nr + 1 ≤ _; omega) (by show 0 < nz + 1 ∧ nz + 1 ≤ _; omega) (by show 0 < nt + 1 ∧ nt + 1 ≤ _; omega)
  have hNv : boxVolume (List.replicate 3 0) N < 2 ^ 63 := by
    rw [← hN]
    show (nr + 1 - 0) * ((nz + 1 - 0) * ((nt + 1 - 0) * 1)) < _
    simp only [Nat.sub_zero, Nat.mul_one]
    exact hvol
  have hstop : vaddS [nr, nz, nt] 1 = N := by
    rw [← hN]
    unfold vaddS
    simp only [List.map_cons, List.map_nil]
    rw [wadd_eq (by omega), wadd_eq (by omega), wadd_eq (by omega)]
  have hz3 : ∀ d, (List.replicate 3 0).getD d 0 = 0 := Meep.zeros_getD 3
  have hreq3 : ∀ d < 3, (List.replicate 3 P.maxPts).getD d 0 = P.maxPts := lt3 rfl rfl rfl
  -- the boxes
  have hsafe : Safe (List.replicate 3 0) N (List.replicate 3 P.maxPts) := Rebuild.safe_of (by simp) (by simp [hNl]) fun d hd => by
    have hd : d < 3 := by simpa using hd
    have := hNd d hd
    rw [hz3, hreq3 d hd]
    omega
  obtain ⟨boxes, b1, b2, b3, b4⟩ := C02_chunk_loop_partitions _ _ _ hsafe
  have hbl : boxes.length ≤ boxVolume (List.replicate 3 0) N := by
    rw [← boxVolume_eq (by simp [hNl])]
    exact boxes_length b2 (by simp [hNl]) b4
  have hbox : ∀ box ∈ boxes, box.1.length = 3 ∧ box.2.length = 3 ∧ (∀ d < 3, box.1.getD d 0 < box.2.getD d 0 ∧ box.2.getD d 0 < 2 ^ 62) ∧ Fit C (subVec box.2 box.1) := fun box hb => by
    obtain ⟨q1, q2, q3⟩ := b2 box hb
    simp only [List.length_replicate] at q1 q2 q3
    refine ⟨q1, q2, fun d hd => ?_, ?_⟩
    · have := q3 d hd
      have := hNd d hd
      omega
    · have hs : Storable C (subVec box.2 box.1) := hst3 (by rw [length_subVec (by omega)]; exact q2) fun d hd => by
        rw [getD_subVec (by omega)]
        have := (q3 d hd).2.2.2.1
        rw [hreq3 d hd] at this
        omega
      have hf := hs.fit hC
      exact ⟨hf.len, hf.lt, hf.vol, by rw [hCh]; exact hf.div0, by rw [hCh]; exact hf.fit, by rw [hCh]; exact hf.below⟩
  -- open
  have hw0 : WInv C S Z ⟨none, (removeAll d dir).fs⟩ (World.init (removeAll d dir).fs) := WInv.init fun e => by
    show (if e = dir then none else d.fs (e, .index)) = none
    split
    · rfl
    · rename_i h; exact hd e h
  obtain ⟨st1, r1, o1, _, o3⟩ := stepW_ok hC hw0 (.open dir (List.replicate 3 P.maxPts)) ⟨rfl, by show 0 < _; decide⟩
  unfold MState.step at o1
  obtain ⟨lib, o4, o5⟩ := Res.bind_eq_ok.1 o1
  cases o5
  have hfill0 : Filling C S Z (sample F P.dip enc [P.r0, P.z0, 0] [sr, sz, st]) uuid dir ((World.init (removeAll d dir).fs).next C (.open dir (List.replicate 3 P.maxPts))) []
      ⟨lib, (removeAll d dir).fs, ⟨List.replicate 3 P.maxPts, (List.range (volume 2 (List.replicate 3 P.maxPts))).map C.junk⟩, 0⟩
      ((World.init (removeAll d dir).fs).next C (.open dir (List.replicate 3 P.maxPts))) ⟨dir, 0, []⟩ :=
    ⟨o3, rfl, rfl, rfl, rfl, fun p hp => (by cases hp), rfl, rfl⟩
  obtain ⟨st', w', l', f1, f2⟩ := fill_loop hC hCd hCv F P.dip enc henc (start := [P.r0, P.z0, 0]) (step := [sr, sz, st]) rfl rfl hu boxes [] _ _ _ hfill0 hbox (by simpa using b4) (by simp; omega)
  rw [List.nil_append] at f2
  have hmem : ∀ p ∈ l'.pieces, (p.start, p.stop) ∈ boxes := fun p hp => by rw [← f2.boxes]; exact List.mem_map.2 ⟨p, hp, rfl⟩
  have hcov : ∀ i, InBox (List.replicate 3 0) N i ↔ Covered l'.pieces i := fun i => by
    rw [b3 i, ← f2.boxes]
    constructor
    · rintro ⟨q, hq, hi⟩
      obtain ⟨p, hp, rfl⟩ := List.mem_map.1 hq
      exact ⟨p, hp, hi⟩
    · rintro ⟨p, hp, hi⟩
      exact ⟨_, List.mem_map.2 ⟨p, hp, rfl⟩, hi⟩
  obtain ⟨hh, hfd⟩ := Meep.hull_of_cover hNl (fun d hd => (hNd d hd).1) (fun p hp => by
    obtain ⟨q1, q2, q3, _⟩ := hbox _ (hmem p hp)
    exact ⟨q1, q2, fun d hd => (q3 d hd).1⟩) hcov
  have hdisk : w'.disk tmp = none := by
    rw [f2.disk]
    show upd _ dir none tmp = none
    unfold upd
    rw [if_neg hne]
    rfl
  have hcan : CanRebuild C w' l' N (List.replicate 3 P.maxPts) tmp 2 uuid' := by
    refine ⟨by rw [hCd]; exact hh, by rw [hCd]; exact hfd, fun d hd => ?_, by simp [hCd], fun d hd => ?_, fun b e hb => ?_, ?_, hu', by rw [f2.dir]; exact hne, hdisk⟩
    · have := hNd d (by omega)
      omega
    · rw [hreq3 d (by omega)]
      omega
    · rw [hCd] at hb
      obtain ⟨q1, q2, q3⟩ := hb
      simp only [List.length_replicate] at q1 q2 q3
      refine hst3 (by simp [subVec, q1, q2]) fun d hd => ?_
      rw [Ops.getD_mapN (f := (· + 2 * 2)) (by rw [length_subVec (by omega)]; omega), getD_subVec (by omega)]
      have := (q3 d hd).2.2.2.1
      rw [hreq3 d hd] at this
      omega
    · rw [f2.next, hCd]; omega
  obtain ⟨lib1, lib2, fs2, cs, w2, ps, g1, g2, g3, g4, g5, g6, g7, g8, g9, g10, g11, g12⟩ := rebuild_ok hC hCh (by rw [hCj]; exact hj) f2.inv f2.cur hcan (opt := false)
  cases g1
  obtain ⟨lib3, cs3, k1, k2, k3, k4, k5, k6, _⟩ := g4.opened _ g5
  cases k1
  have hlen : cs.length < 2 ^ 64 := by
    have k6 : l'.next + ps.length < 2 ^ 64 := k6
    rw [g7.1]; omega
  rw [hCv] at g2
  obtain ⟨q, fs3, m1, m2, m3, m4, m5, m6⟩ := create_lib (S := S) (Z := Z) hC g3 hlen
    ⟨[P.r0, P.z0, 0].map fun x => enc (some x), [P.r1, P.z1, P.tEnd].map fun x => enc (some x), [sr, sz, st].map fun x => enc (some x)⟩ (removeAll d dir).green
  have hdir : lib2.idx.dir = dir := by
    have : lib2.idx.dir = l'.dir := k5
    rw [this, f2.dir]
  rw [hdir] at m5 m6
  refine ⟨⟨fs3, upd (removeAll d dir).green dir (some ((gfMeta C.hst).ser ⟨[P.r0, P.z0, 0].map fun x => enc (some x), [P.r1, P.z1, P.tEnd].map fun x => enc (some x), [sr, sz, st].map fun x => enc (some x)⟩))⟩, cs, ps, ?_, ⟨?_, by rw [hCe]; exact m5, by rw [hCe]; exact g7, hlen, ?_, fun i hi => ?_, fun c hc => ?_⟩⟩
  · unfold electricDipole
    simp only [hreq, h1, h2, h3, Res.ok_bind, hstop]
    rw [o4, Res.ok_bind, b1 _ lt_fuelFor]
    simp only [Res.ofLoop, Res.ok_bind, f1, g2, m6]
  · rw [← hCs]
    show upd _ dir _ dir = _
    unfold upd
    rw [if_pos rfl]
  · refine (Meep.hull_of_cover hNl (fun d hd => (hNd d hd).1) (fun p hp => ?_) (by rw [hCd] at g9; exact g9)).1
    obtain ⟨⟨q1, q2, q3⟩, _⟩ := g8 p hp
    rw [hCd] at q1 q2 q3
    simp only [List.length_replicate] at q1 q2 q3
    exact ⟨q1, q2, fun d hd => (q3 d hd).2.1⟩
  · rw [hCd] at g9
    obtain ⟨p, hp, hpi⟩ := (g9 i).1 hi
    obtain ⟨c, hc, hrc⟩ := g7.rightMem hp
    exact ⟨c, hc, by rw [hrc.start, hrc.stop]; exact hpi⟩
  · obtain ⟨t1, t2, a, t3, t4, t5, t6⟩ := g12 c hc
    rw [hCd] at t2
    have hsp : c.1.ctype = .specified := by
      cases h : c.1.ctype with
      | specified => rfl
      | all_null => exact absurd (t5 h).1 (by decide)
    have e := t4 hsp
    subst e
    refine ⟨t1, t2, hsp, t3, fun j hj => ?_⟩
    obtain ⟨v, v1, v2, v3⟩ := t6 j hj
    rw [hCv] at v1 v2 v3
    have hN0 : (N.map fun _ => 0) = List.replicate 3 0 := by rw [List.map_const', hNl]
    have hval : ∀ {i : List Nat}, ValueAt l'.pieces i v → VEq (sample F P.dip enc [P.r0, P.z0, 0] [sr, sz, st] i) v := fun {i} ⟨p, hp, hi, hv⟩ => by
      rw [← (f2.piece p hp).2.2.2 i hi]; exact hv
    obtain ⟨w1, w2, w3⟩ := v3
    rw [hN0] at w1 w2 w3
    exact ⟨v, v1, v2, fun h => hval (w1 h), w2, fun h h' => hval (w3 h h')⟩

end Verif.Analytic
