import Verif.Dist.Props27
import Verif.Stream.Props16c
/-
C52: what appending along an axis other than the first does: it is correct if every call writes through to the file and the streamer
chunk spans the axes before it; a chunk that waits in the cache rejects it; and changing the axis to the first one always writes the data
already in the file a second time.
-/
namespace Verif.Dist
open Verif Verif.ND Verif.Bytes Verif.Stream
open Verif.Cache (CRel keyGone)

variable {C : Cfg}

/-! ### Specification -/

/-- Sum of the extents along axis `a`. -/
def sumAlong (a : Nat) (l : List Arr) : Nat := (l.map fun s => s.shape.getD a 0).sum

/-- An array in memory with the extents `B` along all axes but `a`, and without a streamer chunk of `2^32` or more vectors. -/
structure SliceOk (C : Cfg) (a : Nat) (B : List Nat) (s : Arr) : Prop where
  shape : s.shape = B.set a (s.shape.getD a 0)
  lt : ∀ x ∈ s.shape, x < 2 ^ 62
  vol : volume C.vd s.shape < 2 ^ 62
  len : s.buf.length = volume C.vd s.shape
  bits : ∀ w ∈ s.buf, w < 2 ^ 32
  below : ChunksBelow s.shape C.chunk

/-- The cache has the requested size 0; the streamer chunk spans the array along all axes before `a`, and spans it or divides its extent
    along the axes after `a`. -/
structure AxisCfg (C : Cfg) (a : Nat) (B : List Nat) : Prop where
  size : C.size = 0
  vd : 0 < C.vd
  ax : a < C.dims
  dims : B.length = C.dims
  len : C.chunk.length = C.dims
  small : Small C.chunk
  pos : ∀ c ∈ C.chunk, 0 < c
  bounded : C.chunk.getD a 0 < 2 ^ 63
  before : ∀ d < a, B.getD d 0 ≤ C.chunk.getD d 0
  after : ∀ d, a < d → d < C.dims → B.getD d 0 ≤ C.chunk.getD d 0 ∨ C.chunk.getD d 0 ∣ B.getD d 0

/-- Appending slices one after the other along axis `a`. -/
def appendAll (C : Cfg) (a : Nat) : CC → FS → Meta → List Arr → Res (CC × FS × Meta)
  | cc, fs, m, [] => .ok (cc, fs, m)
  | cc, fs, m, s :: ss => (appendChunk C a cc fs m s).bind fun q => appendAll C a q.1 q.2.1 q.2.2 ss

/-! ### Proof: writing through -/

theorem SliceOk.small {a : Nat} {B : List Nat} {s : Arr} (h : SliceOk C a B s) : Small s.shape := fun x hx => by
  have := h.lt x hx; omega

theorem SliceOk.slen {a : Nat} {B : List Nat} {s : Arr} (h : SliceOk C a B s) : s.shape.length = B.length := by rw [h.shape]; simp

theorem AxisCfg.safe {a : Nat} {B : List Nat} (hc : AxisCfg C a B) {n : Nat} (hB : ∀ d < B.length, d ≠ a → B.getD d 0 < 2 ^ 62)
    (hn : n < 2 ^ 62) : Safe (B.map fun _ => 0) (B.set a n) C.chunk := by
  have ha : a < B.length := by rw [hc.dims]; exact hc.ax
  refine safe_of (by simp) (by rw [hc.len, List.length_set, hc.dims]) fun d hd => ?_
  have hd : d < B.length := by simpa using hd
  have h0 : (B.map fun _ => 0).getD d 0 = 0 := by
    rw [List.getD_eq_getElem?_getD, List.getElem?_map]; cases B[d]? <;> rfl
  have hpos := hc.pos _ (getD_mem (l := C.chunk) (d := d) (by rw [hc.len, ← hc.dims]; exact hd))
  have hsm := hc.small _ (getD_mem (l := C.chunk) (d := d) (by rw [hc.len, ← hc.dims]; exact hd))
  rw [h0, getD_set ha]
  unfold SafeDim
  by_cases e : d = a
  · rw [if_pos e]
    have := hc.bounded
    subst e
    omega
  · rw [if_neg e]
    have hlt := hB d hd e
    by_cases hda : d < a
    · have := hc.before d hda
      omega
    · rcases hc.after d (by omega) (by rw [← hc.dims]; exact hd) with h3 | h3
      · omega
      · by_cases hz : B.getD d 0 = 0
        · omega
        · have := Nat.le_of_dvd (by omega) h3
          omega

theorem SliceOk.rest {a : Nat} {B : List Nat} (ha : a < B.length) {s : Arr} (h : SliceOk C a B s) :
    (∀ d < B.length, d ≠ a → B.getD d 0 < 2 ^ 62) ∧ s.shape.getD a 0 < 2 ^ 62 := by
  refine ⟨fun d hd hda => ?_, h.lt _ (getD_mem (by rw [h.slen]; exact ha))⟩
  have := h.lt _ (getD_mem (l := s.shape) (d := d) (by rw [h.slen]; exact hd))
  rwa [h.shape, getD_set ha, if_neg hda] at this

/-- A stored copy of an array. -/
structure CopyOf (vd : Nat) (s b : Arr) : Prop where
  shape : b.shape = s.shape
  len : b.buf.length = volume vd b.shape
  get : ∀ i, ValidInd s.shape i → b.get vd i = s.get vd i

theorem SliceOk.given {a : Nat} {B : List Nat} (hc : AxisCfg C a B) {s : Arr} (h : SliceOk C a B s) :
    Given C.vd s.shape (s.shape.map fun _ => 0) (s.hdr C.vd) s.buf where
  view := ViewOf.own
  small := h.small
  vd_pos := hc.vd
  dims := by show 0 < s.shape.length; rw [h.slen, hc.dims]; have := hc.ax; omega
  len := h.len
  vol := h.vol
  bits := h.bits

theorem CopyOf.ok {a : Nat} {B : List Nat} (hc : AxisCfg C a B) {s b : Arr} (h : SliceOk C a B s) (hb : CopyOf C.vd s b) : SliceOk C a B b where
  shape := by rw [hb.shape]; exact h.shape
  lt := by rw [hb.shape]; exact h.lt
  vol := by rw [hb.shape]; exact h.vol
  len := hb.len
  bits := bits_of_elems hc.vd hb.len fun i hi => by
    rw [hb.shape] at hi
    obtain ⟨h1, h2, h3⟩ := elemFn_good (h.given hc) (i := i) hi
    exact ⟨_, (hb.get i hi).trans h1, h3⟩
  below := by rw [hb.shape]; exact h.below

theorem SliceOk.piece {a : Nat} {B : List Nat} (hc : AxisCfg C a B) {s : Arr} (h : SliceOk C a B s) :
    (pieceOf C.vd s).OkAt C.vd a B C.chunk where
  given := h.given hc
  shape := h.shape
  sizes := fun _ => h.below

/-- One call on an empty cache of size 0: a copy of the data goes to the file. -/
theorem through {a : Nat} {B : List Nat} (hc : AxisCfg C a B) {cc : CC} (hr : CRel 1 cc.cache ([] : List (Nat × Entry))) {s : Arr}
    (h : SliceOk C a B s) (m : Meta) (st : Stat) :
    ∃ b, CopyOf C.vd s b ∧ ∀ fs fs', descope C cc.dir fs ⟨m, b, st⟩ = .ok fs' →
      ∃ cc1 cc2, insertInto C cc fs m s st = .ok (cc1, fs) ∧ flushIfUncached C cc1 fs = .ok (cc2, fs') ∧
        CRel 1 cc2.cache ([] : List (Nat × Entry)) ∧ cc2.dir = cc.dir := by
  obtain ⟨r, g1, g2⟩ := hr.insertRef (k := m.id) (by simp) (by simp)
  have hd : 0 < s.shape.length := by rw [h.slen, hc.dims]; have := hc.ax; omega
  obtain ⟨out, h1, h2, h3⟩ := C08_assign_partial C.vd s.shape h.small hd s.buf h.len (r.1.payload r.2).data.shape
    (r.1.payload r.2).data.buf C.junk
  refine ⟨⟨s.shape, out⟩, ⟨rfl, h2, h3⟩, fun fs fs' hdes => ?_⟩
  have hrel := g2 ⟨m, ⟨s.shape, out⟩, st⟩
  rw [List.nil_append] at hrel
  have hins : insertInto C cc fs m s st = .ok ({ cc with cache := Cache.store r.1 r.2 ⟨m, ⟨s.shape, out⟩, st⟩ }, fs) := by
    unfold insertInto makeRoom assignArr
    rw [hr.contains, hr.hasFree]
    simp only [List.map_nil, List.not_mem_nil, decide_false, Bool.not_false, Res.assert_true, Res.ok_bind, List.length_nil,
      Nat.zero_lt_one, decide_true, if_true, g1]
    have h1' : assign C.vd ((r.1.payload r.2).data.hdr C.vd) (r.1.payload r.2).data.buf (s.hdr C.vd) s.buf C.junk
        = .ok (mkHdr C.vd s.shape, out) := h1
    rw [h1']
    rfl
  obtain ⟨e, k1, k2, k3⟩ := hrel.evict (k := m.id) (List.mem_singleton.2 rfl)
  have hcont : Cache.containedElements (Cache.store r.1 r.2 ⟨m, ⟨s.shape, out⟩, st⟩) = [m.id] := by
    have := hrel.contained
    simpa using this
  refine ⟨_, { cc with cache := e.1 }, hins, ?_, ?_, rfl⟩
  · unfold flushIfUncached
    rw [if_pos hc.size]
    unfold flush
    rw [hcont]
    simp only [runLoop, flushOne, k1, Res.ok_bind, k2, hdes]
  · have e0 : keyGone m.id [(m.id, (⟨m, ⟨s.shape, out⟩, st⟩ : Entry))] = [] := by simp [keyGone]
    rw [e0] at k3
    exact k3

/-- The pieces in the file are copies of the slices. -/
inductive Copies (vd : Nat) : List Arr → List Piece → Prop where
  | nil : Copies vd [] []
  | cons {s b l ps} : CopyOf vd s b → Copies vd l ps → Copies vd (s :: l) (pieceOf vd b :: ps)

theorem Copies.snoc {vd : Nat} {l : List Arr} {ps : List Piece} (h : Copies vd l ps) {s b : Arr} (hb : CopyOf vd s b) :
    Copies vd (l ++ [s]) (ps ++ [pieceOf vd b]) := by
  induction h with
  | nil => exact .cons hb .nil
  | cons h0 _ ih => exact .cons h0 ih

theorem Copies.total {vd a : Nat} {l : List Arr} {ps : List Piece} (h : Copies vd l ps) : total a ps = sumAlong a l := by
  induction h with
  | nil => rfl
  | @cons s b l ps h0 _ ih =>
    rw [total_cons, ih]
    have : (pieceOf vd b).along a = s.shape.getD a 0 := by
      show b.shape.getD a 0 = _
      rw [h0.shape]
    rw [this]; rfl

theorem Copies.split {vd : Nat} {l : List Arr} {ps : List Piece} (h : Copies vd l ps) : ∀ {pre s post}, l = pre ++ s :: post →
    ∃ ppre b ppost, ps = ppre ++ pieceOf vd b :: ppost ∧ CopyOf vd s b ∧ Copies vd pre ppre := by
  induction h with
  | nil => intro pre s post e; simp at e
  | @cons s0 b0 l ps h0 _ ih =>
    intro pre s post e
    cases pre with
    | nil =>
      rw [List.nil_append, List.cons.injEq] at e
      obtain ⟨rfl, _⟩ := e
      exact ⟨[], b0, ps, rfl, h0, .nil⟩
    | cons p pre =>
      rw [List.cons_append, List.cons.injEq] at e
      obtain ⟨rfl, e⟩ := e
      obtain ⟨ppre, b, ppost, h1, h2, h3⟩ := ih e
      exact ⟨pieceOf vd b0 :: ppre, b, ppost, by rw [h1]; rfl, h2, .cons h0 h3⟩

theorem Copies.last {vd : Nat} {l : List Arr} {ps : List Piece} (h : Copies vd l ps) (hne : l ≠ []) :
    ∃ l0 s ps0 b, l = l0 ++ [s] ∧ ps = ps0 ++ [pieceOf vd b] ∧ CopyOf vd s b := by
  induction h with
  | nil => exact absurd rfl hne
  | @cons s0 b0 l ps h0 hl ih =>
    cases hl with
    | nil => exact ⟨[], s0, [], b0, rfl, rfl, h0⟩
    | cons x y =>
      obtain ⟨l0, s, ps0, b, h1, h2, h3⟩ := ih (by simp)
      exact ⟨s0 :: l0, s, pieceOf vd b0 :: ps0, b, by rw [h1]; rfl, by rw [h2]; rfl, h3⟩

/-- What is known after the slices `l`. -/
structure AtInv (C : Cfg) (a : Nat) (B : List Nat) (dir : Nat) (path : List Nat) (l : List Arr) (cc : CC) (fs : FS) (m : Meta) : Prop where
  rel : CRel 1 cc.cache ([] : List (Nat × Entry))
  cdir : cc.dir = dir
  path : m.path = path
  ctype : m.ctype = .specified
  shape : m.shape = B.set a (sumAlong a l)
  file : ∃ f ps, fs (absPath dir m) = some f ∧ HistAt C.hst C.vd a B C.chunk ps f ∧ Copies C.vd l ps

theorem sumAlong_append (a : Nat) (x y : List Arr) : sumAlong a (x ++ y) = sumAlong a x + sumAlong a y := by simp [sumAlong]

theorem append_through {a : Nat} {B : List Nat} (hc : AxisCfg C a B) {dir : Nat} {path : List Nat} (hp : path ≠ []) {l : List Arr} {cc : CC} {fs : FS}
    {m : Meta} (hl : ∀ s ∈ l, SliceOk C a B s) (hdiv : ∀ s ∈ l, C.chunk.getD a 0 ∣ s.shape.getD a 0) (hne : l ≠ [])
    (h : AtInv C a B dir path l cc fs m) {s : Arr} (hs : SliceOk C a B s) (hsum : sumAlong a (l ++ [s]) < 2 ^ 62) :
    ∃ q, appendChunk C a cc fs m s = .ok q ∧ AtInv C a B dir path (l ++ [s]) q.1 q.2.1 q.2.2 := by
  have haB : a < B.length := by rw [hc.dims]; exact hc.ax
  have hrest := hs.rest haB
  obtain ⟨f, ps, hf, hh, hcp⟩ := h.file
  have hse : sumAlong a (l ++ [s]) = sumAlong a l + s.shape.getD a 0 := by rw [sumAlong_append]; simp [sumAlong]
  have hm' : m.shape.getD a 0 = sumAlong a l := by rw [h.shape, getD_set haB, if_pos rfl]
  obtain ⟨b, hb, hthr⟩ := through hc h.rel hs (m.grow a (s.shape.getD a 0)) (.append a)
  have hbok := hb.ok hc hs
  obtain ⟨l0, s0, ps0, b0, e1, e2, e3⟩ := hcp.last hne
  have hs0 : SliceOk C a B s0 := hl s0 (by rw [e1]; simp)
  have htot : total a ps = sumAlong a l := hcp.total
  have hU : (2 : Nat) ^ 62 < 2 ^ 64 := by decide
  obtain ⟨f', hf'⟩ := C16_append_along_axis_accepted C.hst C.vd a B C.chunk haB hc.small hc.before ps0 (pieceOf C.vd b0) f
    (by rw [← e2]; exact hh) (by rw [← e2, htot]; omega) (by rw [← e2, htot]; exact hc.safe hrest.1 (by omega))
    (fun d hd => by
      show b0.shape.getD d 0 ≤ _ ∨ _ ∣ b0.shape.getD d 0
      rw [e3.shape]
      by_cases e : d = a
      · subst e; exact Or.inr (hdiv s0 (by rw [e1]; simp))
      · rw [hs0.shape, getD_set haB, if_neg e]
        by_cases hda : d < a
        · exact Or.inl (hc.before d hda)
        · exact hc.after d (by omega) (by rw [← hc.dims]; exact hd))
    (pieceOf C.vd b) (hbok.piece hc) (show Mode.null_suppressed ≠ Mode.automatic by decide)
    (by
      show Safe (b.shape.map fun _ => 0) b.shape C.chunk
      rw [hb.shape, hs.shape, zeros_set]
      exact hc.safe hrest.1 hrest.2)
  have hpath : absPath dir (m.grow a (s.shape.getD a 0)) = absPath dir m := rfl
  have hdes : descope C cc.dir fs ⟨m.grow a (s.shape.getD a 0), b, .append a⟩ = .ok (fs.set (absPath dir m) (some f')) := by
    unfold descope
    rw [if_neg (by show ¬ m.path = []; rw [h.path]; exact hp), h.cdir]
    simp only [hpath, hf]
    have hf'' : appendSlice C.hst C.vd f (b.hdr C.vd) b.buf a .null_suppressed = .ok f' := hf'
    rw [hf'']
    rfl
  obtain ⟨cc1, cc2, k1, k2, k3, k4⟩ := hthr fs _ hdes
  have hcat : shapeAllowsConcat m.shape s.shape a = true := by
    rw [h.shape]
    simp only [shapeAllowsConcat, List.all_eq_true, List.mem_range, Bool.or_eq_true, beq_iff_eq]
    intro d hd
    by_cases e : d = a
    · exact Or.inl e
    · right
      rw [hs.shape, getD_set haB, getD_set haB, if_neg e, if_neg e]
  refine ⟨(cc2, fs.set (absPath dir m) (some f'), m.grow a (s.shape.getD a 0)), ?_, ?_⟩
  · unfold appendChunk
    rw [if_neg (by rw [hcat]; simp)]
    have hcon : Cache.contains cc.cache m.id = false := by rw [h.rel.contains]; simp
    simp only [hcon, Bool.false_eq_true, if_false, k1, Res.ok_bind, k2]
  · refine ⟨k3, k4.trans h.cdir, h.path, h.ctype, ?_, f', ps ++ [pieceOf C.vd b], ?_, ?_, hcp.snoc hb⟩
    · show bump m.shape a (s.shape.getD a 0) = _
      unfold bump
      rw [hm', h.shape, List.set_set, wadd_eq (by have hU : U64 = 2 ^ 64 := rfl; omega), hse]
    · show (fs.set (absPath dir m) (some f')) (absPath dir m) = _
      simp [FS.set]
    · refine HistAt.append hh ?_ (hbok.piece hc) hf'
      rw [htot]
      clear hse hm' htot hsum hh hcp hf e1 hthr hf' h hne
      unfold sumAlong
      induction l with
      | nil => simp
      | cons x xs ih =>
        simp only [List.map_cons, List.sum_cons]
        exact Nat.dvd_add (hdiv x (by simp)) (ih (fun s h => hl s (by simp [h])) (fun s h => hdiv s (by simp [h])))

theorem sumAlong_le (a : Nat) (l : List Arr) (x : Arr) (xs : List Arr) : sumAlong a (l ++ [x]) ≤ sumAlong a (l ++ x :: xs) := by
  rw [sumAlong_append, sumAlong_append]; simp [sumAlong]

theorem all_through {a : Nat} {B : List Nat} (hc : AxisCfg C a B) {dir : Nat} {path : List Nat} (hp : path ≠ []) :
    ∀ (ss l : List Arr) {cc : CC} {fs : FS} {m : Meta}, l ≠ [] → (∀ s ∈ l ++ ss, SliceOk C a B s) →
      (∀ pre s post, l ++ ss = pre ++ s :: post → post ≠ [] → C.chunk.getD a 0 ∣ s.shape.getD a 0) → sumAlong a (l ++ ss) < 2 ^ 62 →
      AtInv C a B dir path l cc fs m →
      ∃ r, appendAll C a cc fs m ss = .ok r ∧ AtInv C a B dir path (l ++ ss) r.1 r.2.1 r.2.2
  | [], l, cc, fs, m, _, _, _, _, h => ⟨(cc, fs, m), rfl, by rw [List.append_nil]; exact h⟩
  | s :: ss, l, cc, fs, m, hne, hok, hdiv, hsum, h => by
      have hdl : ∀ t ∈ l, C.chunk.getD a 0 ∣ t.shape.getD a 0 := by
        intro t ht
        obtain ⟨x, y, rfl⟩ := List.append_of_mem ht
        exact hdiv x t (y ++ s :: ss) (by simp) (by simp)
      obtain ⟨q, h1, h2⟩ := append_through hc hp (fun t ht => hok t (by simp [ht])) hdl hne h (hok s (by simp))
        (Nat.lt_of_le_of_lt (sumAlong_le a l s ss) hsum)
      have e : l ++ s :: ss = (l ++ [s]) ++ ss := by simp
      rw [e] at hok hdiv hsum ⊢
      obtain ⟨r, h3, h4⟩ := all_through hc hp ss (l ++ [s]) (by simp) hok hdiv hsum h2
      exact ⟨r, by rw [appendAll, h1]; exact h3, h4⟩

/-- **C52, what does work.** With a cache of the requested size 0 (every call writes to the file at once), a chunk can be extended along any one axis
    `a`, if the streamer chunk spans the chunk along all axes before `a`, spans it or divides its extent along the axes after `a`, and divides
    the extent along `a` of all pieces but the last: every call succeeds, whatever is on the disk, the metadata have the extents of the
    concatenation, and the chunk reads back as the concatenation along axis `a` of what was registered and all slices.

    Missing from the full property: other configurations, which the code accepts as well (`C16_other_axis_wrong`, `C16_long_chunk_wrong`,
    `C52_axis_change_duplicates`). -/
theorem C52_write_through_partial (C : Cfg) (a : Nat) (B : List Nat) (hc : AxisCfg C a B) (hwf : ∃ c ∈ C.chunk, c ≠ 2 ^ 64 - 1)
    (dir : Nat) (init_shape : List Nat) (fs : FS) (m : Meta) (hp : m.path ≠ []) (hct : m.ctype = .specified) (A : Arr) (hmA : m.shape = A.shape)
    (ss : List Arr) (hok : ∀ s ∈ A :: ss, SliceOk C a B s)
    (hdiv : ∀ pre s post, A :: ss = pre ++ s :: post → post ≠ [] → C.chunk.getD a 0 ∣ s.shape.getD a 0)
    (hsum : sumAlong a (A :: ss) < 2 ^ 62) :
    ∃ cc q r, CC.construct C dir init_shape = .ok cc ∧ registerNew C cc fs m A = .ok q ∧ appendAll C a q.1 q.2 m ss = .ok r ∧
      r.2.2.shape = B.set a (sumAlong a (A :: ss)) ∧
      ∃ cc' fs' out, retrieve C r.1 r.2.1 r.2.2 = .ok (cc', fs', out) ∧ out.shape = B.set a (sumAlong a (A :: ss)) ∧
        ∀ pre s post, A :: ss = pre ++ s :: post → ∀ i, ValidInd s.shape i → ∃ v w, s.get C.vd i = .ok v ∧
          out.get C.vd (i.set a (sumAlong a pre + i.getD a 0)) = .ok w ∧ VEq v w := by
  have haB : a < B.length := by rw [hc.dims]; exact hc.ax
  have hA := hok A (by simp)
  have hrest := hA.rest haB
  obtain ⟨c0, hc1, hc2⟩ := Cache.CRel.construct (max 1 C.size) (by omega)
    (⟨defaultMeta C.dims, ⟨init_shape, (List.range (volume C.vd init_shape)).map C.junk⟩, .nothing⟩ : Entry) 0
  have hmax : max 1 C.size = 1 := by rw [hc.size]; rfl
  have hrel : CRel 1 (⟨dir, c0⟩ : CC).cache ([] : List (Nat × Entry)) := by rw [hmax] at hc2; exact hc2
  obtain ⟨b, hb, hthr⟩ := through hc hrel hA m .serialize
  have hbok := hb.ok hc hA
  obtain ⟨f, hf, _⟩ := C15_round_trip C.hst C.vd _ _ _ _ (hbok.given hc) C.chunk hc.small hwf
    (by
      show Safe (b.shape.map fun _ => 0) b.shape C.chunk
      rw [hbok.shape, zeros_set]
      exact hc.safe hrest.1 (hbok.rest haB).2) .null_suppressed (by decide) (fun _ => hbok.below)
  have hdes : descope C (⟨dir, c0⟩ : CC).dir fs ⟨m, b, .serialize⟩ = .ok (fs.set (absPath dir m) (some f)) := by
    unfold descope
    rw [if_neg hp]
    simp only [hf, Res.ok_bind]
  obtain ⟨cc1, cc2, k1, k2, k3, k4⟩ := hthr fs _ hdes
  have hinv : AtInv C a B dir m.path [A] cc2 (fs.set (absPath dir m) (some f)) m := by
    refine ⟨k3, k4, rfl, hct, ?_, f, [pieceOf C.vd b], by simp [FS.set], HistAt.init (hbok.piece hc) hf, .cons hb .nil⟩
    rw [hmA, hA.shape]; simp [sumAlong]
  obtain ⟨r, h1, h2⟩ := all_through hc hp ss [A] (by simp) hok hdiv hsum hinv
  refine ⟨⟨dir, c0⟩, (cc2, fs.set (absPath dir m) (some f)), r, by unfold CC.construct; rw [hc1]; rfl,
    by unfold registerNew; rw [k1]; exact k2, h1, h2.shape, ?_⟩
  obtain ⟨f', ps, g1, g2, g3⟩ := h2.file
  have htot : total a ps = sumAlong a (A :: ss) := g3.total
  have hU : (2 : Nat) ^ 62 < 2 ^ 64 := by decide
  obtain ⟨rf, r1, r2⟩ := h2.rel.insertRef (k := r.2.2.id) (by simp) (by simp)
  obtain ⟨out, o1, o2, o3⟩ := C16_append_along_axis_partial C.hst C.vd a B C.chunk haB hc.small hc.before ps f' g2
    (by rw [htot]; omega) (by rw [htot]; exact hc.safe hrest.1 hsum) (rf.1.payload rf.2).data.shape (rf.1.payload rf.2).data.buf C.junk []
  rw [List.append_nil, hc.dims, htot] at o1
  rw [htot] at o2 o3
  refine ⟨{ r.1 with cache := Cache.store rf.1 rf.2 ⟨r.2.2, ⟨B.set a (sumAlong a (A :: ss)), out⟩, .nothing⟩ }, r.2.1,
    ⟨B.set a (sumAlong a (A :: ss)), out⟩, ?_, rfl, ?_⟩
  · unfold retrieve
    have hcon : Cache.contains r.1.cache r.2.2.id = false := by rw [h2.rel.contains]; simp
    rw [if_neg (by rw [hcon]; simp)]
    unfold deserInto makeRoom
    rw [h2.rel.hasFree]
    simp only [List.length_nil, Nat.zero_lt_one, decide_true, if_true, Res.ok_bind, r1]
    unfold loadChunk
    rw [h2.ctype, h2.cdir]
    simp only [g1]
    unfold loadFile
    have o1' : deserialize C.hst C.vd C.dims ((rf.1.payload rf.2).data.hdr C.vd) (rf.1.payload rf.2).data.buf C.junk f'
        = .ok ((mkHdr C.vd (B.set a (sumAlong a (A :: ss))), out), []) := o1
    rw [o1']
    rfl
  · intro pre s post hl i hi
    obtain ⟨ppre, b', ppost, e1, e2, e3⟩ := g3.split (pre := pre) (s := s) (post := post) hl
    obtain ⟨v, v', w1, w2, _, w4⟩ := o3 ppre (pieceOf C.vd b') ppost e1 i (by show ValidInd b'.shape i; rw [e2.shape]; exact hi)
    have hv : s.get C.vd i = .ok v := by rw [← e2.get i hi]; exact w1
    rw [e3.total] at w2
    exact ⟨v, v', hv, w2, VEq.of_canon (w4 rfl)⟩

/-! ### Rejection -/

theorem appendArr_other (C : Cfg) (x s : Arr) {a : Nat} (h0 : a ≠ 0) (q : Arr) : appendArr C x s a ≠ .ok q := by
  unfold appendArr append
  rw [if_neg h0]
  simp only [Res.bind_eq]
  cases decide (a < (x.hdr C.vd).shape.length) <;> simp [Res.assert, Arr.hdr, mkHdr, Res.bind]

/-- **C52, rejection.** A chunk whose data or slices wait in the cache to be written never accepts a slice along an axis other than the first one,
    whatever the shapes: no such call succeeds.  (The stored data are unchanged, but the caller's metadata have already been enlarged when the
    exception is thrown, DistributedNDVecArray.hxx 124; outcomes other than success carry no state in this model.) -/
theorem C52_pending_rejected (C : Cfg) (a : Nat) (h0 : a ≠ 0) (cc : CC) (fs : FS) (m : Meta) (s : Arr)
    (hcon : Cache.contains cc.cache m.id = true)
    (hst : ∀ r, Cache.get cc.cache m.id = .ok r → (r.1.payload r.2).stat ≠ .nothing) (q : CC × FS × Meta) :
    appendChunk C a cc fs m s ≠ .ok q := by
  intro h
  unfold appendChunk at h
  split at h
  · cases h
  · obtain ⟨q1, h1, _⟩ := Res.bind_eq_ok.1 h
    simp only [hcon, if_true] at h1
    obtain ⟨r, g1, h1⟩ := Res.bind_eq_ok.1 h1
    have := hst r g1
    cases hs : (r.1.payload r.2).stat with
    | nothing => exact this hs
    | serialize =>
      simp only [hs] at h1
      obtain ⟨b, h2, _⟩ := Res.bind_eq_ok.1 h1
      exact appendArr_other C _ s h0 b h2
    | append ax =>
      simp only [hs] at h1
      obtain ⟨b, h2, _⟩ := Res.bind_eq_ok.1 h1
      unfold appendPending at h2
      obtain ⟨e, _, h2⟩ := Res.bind_eq_ok.1 h2
      obtain ⟨b, h2, _⟩ := Res.bind_eq_ok.1 h2
      exact appendArr_other C _ s h0 b h2

/-! ### Changing the axis -/

/-- **C52, negation, in every state.** Whenever a chunk with a slice waiting along an axis `ax` other than the first gets a slice along the first axis
    (and the call succeeds), everything that is in the file by then, the waiting slice included, waits to be appended to the file again: the waiting data are
    all of the file's data followed by the new slice, and writing them makes the file's extent along the first axis twice the old one plus
    the new slice. -/
theorem C52_axis_change_always_duplicates (C : Cfg) (dir : Nat) (fs : FS) (e : Entry) (ax : Nat) (hax : ax ≠ 0) (hst : e.stat = .append ax)
    (hty : e.info.ctype = .specified) (m : Meta) (hpath : m.path = e.info.path) (hp : m.path ≠ []) (s : Arr) (fs' : FS) (e' : Entry)
    (h : appendPending C dir fs e ax 0 m s = .ok (fs', e')) (hdim : e'.data.shape.length = C.dims) :
    ∃ f all, fs' (absPath dir m) = some f ∧ loadFile C f e.data = .ok all ∧ e'.stat = .append 0 ∧
      e'.data.shape = all.shape.set 0 (wadd (all.shape.getD 0 0) (s.shape.getD 0 0)) ∧
      ∀ fs'', descope C dir fs' e' = .ok fs'' → ∃ f' rest, fs'' (absPath dir m) = some f' ∧
        ∃ acc ch, f' = (sMeta C.hst C.dims).ser ⟨ch, all.shape.set 0
          (wadd (all.shape.getD 0 0) (e'.data.shape.getD 0 0)), acc⟩ ++ rest := by
  unfold appendPending at h
  rw [if_pos hax] at h
  obtain ⟨q, hq, h⟩ := Res.bind_eq_ok.1 h
  obtain ⟨y, hy, hq⟩ := Res.bind_eq_ok.1 hq
  obtain ⟨b, hb, h⟩ := Res.bind_eq_ok.1 h
  have hq := Res.ok.inj hq
  subst hq
  have h := Res.ok.inj h
  rw [Prod.mk.injEq] at h
  obtain ⟨rfl, rfl⟩ := h
  have hap : absPath dir e.info = absPath dir m := by unfold absPath; rw [hpath]
  unfold sync at hy
  rw [if_neg (by rw [hty]; decide)] at hy
  cases hf : fs (absPath dir e.info) with
  | none => rw [hf] at hy; cases hy
  | some f0 =>
    rw [hf] at hy
    simp only [hst] at hy
    obtain ⟨f1, hf1, hy⟩ := Res.bind_eq_ok.1 hy
    obtain ⟨all, hall, hy⟩ := Res.bind_eq_ok.1 hy
    have hy := Res.ok.inj hy
    subst hy
    simp only at hb ⊢
    unfold appendArr append at hb
    rw [if_pos rfl] at hb
    simp only [Res.bind_eq] at hb
    obtain ⟨u, hu, hb⟩ := Res.bind_eq_ok.1 hb
    have hb := Res.ok.inj hb
    obtain ⟨_, _, hu⟩ := Res.bind_eq_ok.1 hu
    obtain ⟨_, _, hu⟩ := Res.bind_eq_ok.1 hu
    obtain ⟨rz, hrz, hu⟩ := Res.bind_eq_ok.1 hu
    obtain ⟨d, _, hu⟩ := Res.bind_eq_ok.1 hu
    have hu := Res.ok.inj hu
    have hbs : b.shape = all.shape.set 0 (wadd (all.shape.getD 0 0) (s.shape.getD 0 0)) := by
      rw [← hb, ← hu]
      unfold resize at hrz
      simp only [Res.bind_eq] at hrz
      obtain ⟨_, _, hrz⟩ := Res.bind_eq_ok.1 hrz
      rw [← Res.ok.inj hrz]
      rfl
    refine ⟨f1, all, by rw [← hap]; simp [FS.set], hall, trivial, hbs, ?_⟩
    intro fs'' hd
    unfold descope at hd
    rw [if_neg hp] at hd
    simp only at hd
    rw [← hap] at hd
    simp only [FS.set, if_true] at hd
    obtain ⟨f', hf', hd⟩ := Res.bind_eq_ok.1 hd
    refine ⟨f', ?_⟩
    unfold loadFile deserialize at hall
    obtain ⟨al, hal, hall⟩ := Res.bind_eq_ok.1 hall
    obtain ⟨mm, hmm, hal⟩ := Res.bind_eq_ok.1 hal
    obtain ⟨ra, hra, hal⟩ := Res.bind_eq_ok.1 hal
    obtain ⟨_, _, hal⟩ := Res.bind_eq_ok.1 hal
    obtain ⟨_, _, hal⟩ := Res.bind_eq_ok.1 hal
    have hshape : all.shape = mm.1.array_shape := by
      rw [← Res.ok.inj hall, ← Res.ok.inj hal]
      unfold resize at hra
      simp only [Res.bind_eq] at hra
      obtain ⟨_, _, hra⟩ := Res.bind_eq_ok.1 hra
      rw [← Res.ok.inj hra]
    have hfs : fs'' (absPath dir e.info) = some f' := by
      rw [← Res.ok.inj hd]; simp [FS.set]
    rw [← hap]
    unfold appendSlice at hf'
    have hdm : (b.hdr C.vd).shape.length = C.dims := hdim
    rw [hdm] at hf'
    obtain ⟨mm', hmm', hf'⟩ := Res.bind_eq_ok.1 hf'
    rw [hmm] at hmm'
    have := Res.ok.inj hmm'
    subst this
    split at hf'
    · cases hf'
    · obtain ⟨_, _, hf'⟩ := Res.bind_eq_ok.1 hf'
      split at hf'
      · cases hf'
      · obtain ⟨acc, _, hf'⟩ := Res.bind_eq_ok.1 hf'
        obtain ⟨body, _, hf'⟩ := Res.bind_eq_ok.1 hf'
        have hf' := Res.ok.inj hf'
        rw [List.append_assoc] at hf'
        rw [← hshape] at hf'
        exact ⟨_, hfs, accessOf acc, mm.1.ser_chunk, hf'.symm⟩

/-! ### The hypotheses are met -/

namespace Ex52

def cfg (size : Nat) : Cfg := ⟨.little, 1, 2, [1, 2], size, fun _ => 0⟩
def meta0 : Meta := mkMeta .specified [65] 0 [0, 0] [1, 2] 0
def a : Arr := ⟨[1, 2], [5, 6]⟩
def b : Arr := ⟨[1, 2], [7, 8]⟩
def c : Arr := ⟨[1, 1], [9]⟩

theorem axisCfg : AxisCfg (cfg 0) 1 [1, 9] where
  size := rfl
  vd := by decide
  ax := by decide
  dims := rfl
  len := rfl
  small := fun x hx => by
    have : x = 1 ∨ x = 2 := by simpa [cfg] using hx
    rcases this with h | h <;> (subst h; decide)
  pos := by decide
  bounded := by decide
  before := by decide
  after := fun d h1 h2 => by
    have h2 : d < 2 := h2
    omega

theorem below_of {sh ch : List Nat} (h : prod sh < 2 ^ 32) : ChunksBelow sh ch := by
  intro lo hi hb
  obtain ⟨h1, h2, h3⟩ := hb
  simp only [List.length_map] at h1 h2 h3
  have hle : prod (subVec hi lo) ≤ prod sh := by
    apply prod_mono
    refine ⟨by rw [length_subVec (by omega)]; omega, fun d hd' => ?_⟩
    rw [length_subVec (by omega)] at hd'
    rw [getD_subVec (by omega)]
    have := h3 d (by omega)
    omega
  rw [numElems_eq]
  omega

theorem okA : SliceOk (cfg 0) 1 [1, 9] a :=
  ⟨by decide, by decide, by decide, by decide, by decide, below_of (by decide)⟩
theorem okB : SliceOk (cfg 0) 1 [1, 9] b :=
  ⟨by decide, by decide, by decide, by decide, by decide, below_of (by decide)⟩
theorem okC : SliceOk (cfg 0) 1 [1, 9] c :=
  ⟨by decide, by decide, by decide, by decide, by decide, below_of (by decide)⟩

end Ex52

/-- The chunk `[[5, 6]]`, extended along axis 1 by `[[7, 8]]` and `[[9]]`. -/
example (fs : FS) : ∃ cc q r, CC.construct (Ex52.cfg 0) 3 [1, 1] = .ok cc ∧ registerNew (Ex52.cfg 0) cc fs Ex52.meta0 Ex52.a = .ok q ∧
    appendAll (Ex52.cfg 0) 1 q.1 q.2 Ex52.meta0 [Ex52.b, Ex52.c] = .ok r ∧ r.2.2.shape = [1, 5] := by
  obtain ⟨cc, q, r, h1, h2, h3, h4, _⟩ := C52_write_through_partial (Ex52.cfg 0) 1 [1, 9] Ex52.axisCfg ⟨1, by decide, by decide⟩ 3 [1, 1] fs
    Ex52.meta0 (by decide) rfl Ex52.a rfl [Ex52.b, Ex52.c]
    (fun s hs => by
      simp only [List.mem_cons, List.not_mem_nil, or_false] at hs
      rcases hs with h | h | h <;> subst h
      · exact Ex52.okA
      · exact Ex52.okB
      · exact Ex52.okC)
    (fun pre s post e hp => by
      rcases pre with _ | ⟨x, _ | ⟨y, _ | ⟨z, w⟩⟩⟩
      · simp only [List.nil_append, List.cons.injEq] at e
        rw [← e.1]; decide
      · simp only [List.nil_append, List.cons_append, List.cons.injEq] at e
        rw [← e.2.1]; decide
      · simp only [List.nil_append, List.cons_append, List.cons.injEq] at e
        exact absurd e.2.2.2.symm hp
      · simp at e) (by decide)
  exact ⟨cc, q, r, h1, h2, h3, h4⟩

/-- The chunk read back. -/
example : ((CC.construct (Ex52.cfg 0) 3 [1, 1]).bind fun cc => (registerNew (Ex52.cfg 0) cc (fun _ => none) Ex52.meta0 Ex52.a).bind fun q =>
    (appendAll (Ex52.cfg 0) 1 q.1 q.2 Ex52.meta0 [Ex52.b, Ex52.c]).bind fun r =>
    (retrieve (Ex52.cfg 0) r.1 r.2.1 r.2.2).bind fun o => .ok o.2.2) = .ok ⟨[1, 5], [5, 6, 7, 8, 9]⟩ := by decide +kernel

/-- A freshly registered chunk waits in a cache of one element. -/
example : ∃ cc fs, registerNew (Ex52.cfg 1) cc fs Ex52.meta0 Ex52.a ≠ .abort ∧ ∃ q, registerNew (Ex52.cfg 1) cc fs Ex52.meta0 Ex52.a = .ok q ∧
    Cache.contains q.1.cache Ex52.meta0.id = true ∧
    (∀ r, Cache.get q.1.cache Ex52.meta0.id = .ok r → (r.1.payload r.2).stat ≠ .nothing) ∧
    ∀ q', appendChunk (Ex52.cfg 1) 1 q.1 q.2 Ex52.meta0 Ex52.b ≠ .ok q' := by
  have h : ((CC.construct (Ex52.cfg 1) 3 [1, 1]).bind fun cc => (registerNew (Ex52.cfg 1) cc (fun _ => none) Ex52.meta0 Ex52.a).bind fun q =>
      (Cache.get q.1.cache Ex52.meta0.id).bind fun r => .ok (Cache.contains q.1.cache Ex52.meta0.id, (r.1.payload r.2).stat))
      = .ok (true, .serialize) := by decide +kernel
  obtain ⟨cc, _, h⟩ := Res.bind_eq_ok.1 h
  obtain ⟨q, hq, h⟩ := Res.bind_eq_ok.1 h
  obtain ⟨r, hr, h⟩ := Res.bind_eq_ok.1 h
  have h := Res.ok.inj h
  rw [Prod.mk.injEq] at h
  have hst : ∀ r', Cache.get q.1.cache Ex52.meta0.id = .ok r' → (r'.1.payload r'.2).stat ≠ .nothing := fun r' h' => by
    rw [hr] at h'
    rw [← Res.ok.inj h', h.2]
    decide
  exact ⟨cc, _, by rw [hq]; simp, q, hq, h.1, hst, C52_pending_rejected _ _ (by decide) _ _ _ _ h.1 hst⟩

/-- The chunk `[[5]]` with `[[7]]` waiting along axis 1 gets `[[8, 9]]` along axis 0: `[[5, 7], [8, 9]]` waits to be appended to a file that
    holds `[[5, 7]]`. -/
example : ((descope ⟨.little, 1, 2, [1, 1], 1, fun _ => 0⟩ 3 (fun _ => none) ⟨mkMeta .specified [65] 0 [0, 0] [1, 1] 0, ⟨[1, 1], [5]⟩, .serialize⟩).bind
    fun fs => (appendPending ⟨.little, 1, 2, [1, 1], 1, fun _ => 0⟩ 3 fs ⟨mkMeta .specified [65] 0 [0, 0] [1, 2] 0, ⟨[1, 1], [7]⟩, .append 1⟩ 1 0
      (mkMeta .specified [65] 0 [0, 0] [2, 2] 0) ⟨[1, 2], [8, 9]⟩).bind fun q => .ok (q.2.data, q.2.stat)) =
      .ok (⟨[2, 2], [5, 7, 8, 9]⟩, .append 0) := by decide +kernel

end Verif.Dist
