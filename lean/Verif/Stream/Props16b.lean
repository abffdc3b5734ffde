import Verif.Stream.Props16
/-!
C16 for slices appended along any axis: what `append_slice` does handle besides the first axis.
-/
namespace Verif.Stream
open Verif Verif.ND Verif.Bytes Verif.NullSup

/-! ### Specification -/

/-- Extent along axis `a`. -/
def Piece.along (a : Nat) (s : Piece) : Nat := s.h.shape.getD a 0

/-- Sum of the extents along axis `a`. -/
def total (a : Nat) (l : List Piece) : Nat := (l.map (Piece.along a)).sum

/-- A piece exists in memory, has the extents `B` along all axes but `a`, and has no serialization chunk of `2^32` or more vectors if it
    is null-suppressed. -/
structure Piece.OkAt (vd a : Nat) (B chunk : List Nat) (s : Piece) : Prop where
  given : Given vd s.P s.st s.h s.buf
  shape : s.h.shape = B.set a (s.along a)
  sizes : s.mode = .null_suppressed → ChunksBelow s.h.shape chunk

/-- The files that can be produced by one `serialize` followed by any number of successful `append_slice` calls along axis `a`, each at
    a moment when the serialization chunk length along this axis divides the extent stored so far. -/
inductive HistAt (hst : Host) (vd a : Nat) (B chunk : List Nat) : List Piece → List Nat → Prop where
  | init {s file} : s.OkAt vd a B chunk → serialize hst vd s.h s.buf chunk s.mode = .ok file → HistAt hst vd a B chunk [s] file
  | append {l file s file'} : HistAt hst vd a B chunk l file → chunk.getD a 0 ∣ total a l → s.OkAt vd a B chunk →
      appendSlice hst vd file s.h s.buf a s.mode = .ok file' → HistAt hst vd a B chunk (l ++ [s]) file'

/-! ### Lemmas -/

theorem total_append (a : Nat) (x y : List Piece) : total a (x ++ y) = total a x + total a y := by simp [total]

theorem total_cons (a : Nat) (s : Piece) (y : List Piece) : total a (s :: y) = s.along a + total a y := by simp [total]

theorem getD_set {l : List Nat} {a x d : Nat} (ha : a < l.length) : (l.set a x).getD d 0 = if d = a then x else l.getD d 0 := by
  rw [List.getD_eq_getElem?_getD, List.getElem?_set, List.getD_eq_getElem?_getD]
  by_cases h : a = d
  · subst h; simp [ha]
  · rw [if_neg h, if_neg (fun e => h e.symm)]

theorem set_getD {l : List Nat} {a : Nat} : l.set a (l.getD a 0) = l := by
  apply List.ext_getElem?
  intro d
  rw [List.getElem?_set]
  by_cases h : a = d
  · subst h
    by_cases hl : a < l.length
    · rw [if_pos rfl, if_pos hl, List.getD_eq_getElem?_getD, List.getElem?_eq_getElem hl]; rfl
    · rw [if_pos rfl, if_neg hl, List.getElem?_eq_none (by omega)]
  · rw [if_neg h]

theorem zipWith_set (f : Nat → Nat → Nat) : ∀ (l m : List Nat) (a x y : Nat),
    List.zipWith f (l.set a x) (m.set a y) = (List.zipWith f l m).set a (f x y)
  | [], m, a, x, y => by simp
  | _ :: _, [], a, x, y => by simp
  | _ :: _, _ :: _, 0, x, y => by simp
  | _ :: l, _ :: m, a + 1, x, y => by simp [zipWith_set f l m a x y]

theorem zeros_set (B : List Nat) (a x : Nat) : (B.set a x).map (fun _ => 0) = B.map fun _ => 0 := by
  simp [List.map_const']

/-- Moving a box along axis `a`. -/
def shiftAt (a n : Nat) (p : List Nat × List Nat) : List Nat × List Nat :=
  (p.1.set a (n + p.1.getD a 0), p.2.set a (n + p.2.getD a 0))

theorem chunkDimSpec_one {e c : Nat} (h : e ≤ c) : chunkDimSpec 0 e c = [] ∨ chunkDimSpec 0 e c = [(0, e)] := by
  by_cases he : e = 0
  · left; rw [he]; exact chunkDimSpec_nil (Nat.le_refl 0)
  · right
    rw [chunkDimSpec_cons (by omega) (by omega), show min (0 + c) e = e by omega, chunkDimSpec_nil (Nat.le_refl e)]

theorem chunkSpec_append_at {n m : Nat} : ∀ {a : Nat} {B C : List Nat}, a < B.length → B.length = C.length →
    (∀ d < a, B.getD d 0 ≤ C.getD d 0) → C.getD a 0 ∣ n →
    chunkSpec (B.map fun _ => 0) (B.set a (n + m)) C
      = chunkSpec (B.map fun _ => 0) (B.set a n) C ++ (chunkSpec (B.map fun _ => 0) (B.set a m) C).map (shiftAt a n)
  | _, [], _, h, _, _, _ => by simp at h
  | _, _ :: _, [], _, h, _, _ => by simp at h
  | 0, e :: R, c :: cs, _, _, _, hd => by
    obtain ⟨k, hk⟩ := hd
    simp only [List.getD_cons_zero] at hk
    subst hk
    simp only [List.set_cons_zero, List.map_cons, chunkSpec]
    rw [chunkDimSpec_append c k (c * k) 0 (by rw [Nat.zero_add, Nat.mul_comm]) m, List.flatMap_append]
    congr 1
    have := chunkDimSpec_shift (c * k) c 0 m
    rw [Nat.add_zero] at this
    rw [this, List.flatMap_map, List.map_flatMap]
    congr 1
    funext o
    rw [List.map_map]
    rfl
  | a + 1, e :: R, c :: cs, h, hl, hB, hd => by
    have ih := chunkSpec_append_at (n := n) (m := m) (a := a) (B := R) (C := cs) (by simpa using h) (by simpa using hl)
      (fun d hd' => by simpa using hB (d + 1) (by omega)) (by simpa using hd)
    have h0 : e ≤ c := by simpa using hB 0 (by omega)
    simp only [List.set_cons_succ, List.map_cons, chunkSpec]
    rcases chunkDimSpec_one h0 with h1 | h1
    · rw [h1]; rfl
    · rw [h1]
      simp only [List.flatMap_cons, List.flatMap_nil, List.append_nil]
      rw [ih, List.map_append, List.map_map, List.map_map]
      congr 1

theorem safe_mono_at {n N : Nat} : ∀ {a : Nat} {B C : List Nat}, n ≤ N → Safe (B.map fun _ => 0) (B.set a N) C →
    Safe (B.map fun _ => 0) (B.set a n) C
  | _, [], _, _, h => by simpa using h
  | 0, _ :: _, [], _, h => by simp [Safe] at h
  | a + 1, _ :: _, [], _, h => by simp [Safe] at h
  | 0, e :: R, c :: cs, hn, h => ⟨safeDim_mono h.1 hn, h.2⟩
  | a + 1, e :: R, c :: cs, hn, h => ⟨h.1, safe_mono_at hn h.2⟩

theorem safe_at_len {a N : Nat} {B C : List Nat} (h : Safe (B.map fun _ => 0) (B.set a N) C) : B.length = C.length := by
  have := h.len; simpa using this.2

theorem leVec_set {a x y : Nat} {l m : List Nat} (hl : l.length = m.length) (ha : a < l.length) (h : ∀ d < l.length, d ≠ a → l.getD d 0 ≤ m.getD d 0)
    (hxy : x ≤ y) : LeVec (l.set a x) (m.set a y) := by
  refine ⟨by simpa using hl, fun d hd => ?_⟩
  rw [getD_set ha, getD_set (by omega)]
  by_cases e : d = a
  · rw [if_pos e, if_pos e]; exact hxy
  · rw [if_neg e, if_neg e]; exact h d (by simpa using hd) e

/-- What is known about a file: metadata followed by good box records. -/
structure FileAt (hst : Host) (vd a : Nat) (B chunk : List Nat) (l : List Piece) (file : List Nat) (b : Bool)
    (f : List Nat → List Nat) (bs : List ((List Nat × List Nat) × Mode)) : Prop where
  file : file = (sMeta hst B.length).ser ⟨chunk, B.set a (total a l), accessOf b⟩ ++ bs.flatMap (boxRecord hst vd f)
  boxes : bs.map Prod.fst = chunkSpec (B.map fun _ => 0) (B.set a (total a l)) chunk
  good : ∀ x ∈ bs, BoxGood vd (B.set a (total a l)) f x
  vals : ∀ pre s post, l = pre ++ s :: post → ∀ i, ValidInd s.h.shape i →
    ∀ x ∈ bs, InBox x.1.1 x.1.2 (i.set a (total a pre + i.getD a 0)) →
      gMode x.2 (f (i.set a (total a pre + i.getD a 0))) = gMode s.mode (elemFn vd s.P s.st s.buf i)

theorem Piece.OkAt.len {vd a : Nat} {B chunk : List Nat} {s : Piece} (h : s.OkAt vd a B chunk) : s.h.shape.length = B.length := by
  rw [h.shape]; simp

theorem Piece.OkAt.zeros {vd a : Nat} {B chunk : List Nat} {s : Piece} (h : s.OkAt vd a B chunk) :
    (s.h.shape.map fun _ => 0) = B.map fun _ => 0 := by
  rw [h.shape]; exact zeros_set _ _ _

theorem small_at {vd a : Nat} {B chunk : List Nat} {s : Piece} (h : s.OkAt vd a B chunk) (ha : a < B.length) {n : Nat} (hn : n < 2 ^ 64) :
    Small (B.set a n) := by
  have hs := (h.given.view.shape_small h.given.small).1
  intro x hx
  obtain ⟨d, hd, rfl⟩ := List.getElem_of_mem hx
  have hd' : d < B.length := by simpa using hd
  have e := getD_mem_lt hd
  rw [getD_set ha] at e
  rw [← e]
  by_cases hda : d = a
  · rw [if_pos hda]; exact hn
  · rw [if_neg hda]
    have := hs.getD d
    rw [h.shape, getD_set ha, if_neg hda] at this
    exact this

/-- Boxes, indices and shapes moved along axis `a`. -/
theorem subVec_shift {a n : Nat} {p : List Nat × List Nat} (h : p.1.length = p.2.length) (_ha : a < p.1.length) :
    subVec (shiftAt a n p).2 (shiftAt a n p).1 = subVec p.2 p.1 := by
  unfold shiftAt
  show List.zipWith (· - ·) _ _ = List.zipWith (· - ·) _ _
  rw [zipWith_set]
  have e : n + p.2.getD a 0 - (n + p.1.getD a 0) = (subVec p.2 p.1).getD a 0 := by
    rw [getD_subVec h.symm]; omega
  rw [e]
  exact set_getD

theorem addVec_shift {a n : Nat} {lo k : List Nat} (h : lo.length = k.length) (_ha : a < lo.length) :
    addVec (lo.set a (n + lo.getD a 0)) k = (addVec lo k).set a (n + (addVec lo k).getD a 0) := by
  have e : (addVec lo k).set a (n + (addVec lo k).getD a 0) = List.zipWith (· + ·) (lo.set a (n + lo.getD a 0)) (k.set a (k.getD a 0)) := by
    rw [zipWith_set, getD_addVec h]
    show List.set _ _ _ = List.set _ _ _
    rw [Nat.add_assoc]; rfl
  rw [e, set_getD]; rfl

theorem set_back {a n : Nat} {i : List Nat} (ha : a < i.length) :
    (i.set a (n + i.getD a 0)).set a ((i.set a (n + i.getD a 0)).getD a 0 - n) = i := by
  rw [List.set_set, getD_set ha, if_pos rfl, Nat.add_sub_cancel_left, set_getD]

theorem inBox_back {a n : Nat} {p : List Nat × List Nat} {i : List Nat} (h : p.1.length = p.2.length) (ha : a < p.1.length)
    (hi : InBox (shiftAt a n p).1 (shiftAt a n p).2 i) : n ≤ i.getD a 0 ∧ InBox p.1 p.2 (i.set a (i.getD a 0 - n)) := by
  obtain ⟨h1, h2, h3⟩ := hi
  simp only [shiftAt, List.length_set] at h1 h2
  have h0 := h3 a (by omega)
  simp only [shiftAt] at h0
  rw [getD_set ha, if_pos rfl, getD_set (by omega), if_pos rfl] at h0
  refine ⟨by omega, by simpa using h1, by simpa using h2, fun d hd => ?_⟩
  simp only [List.length_set] at hd
  have hd3 := h3 d hd
  simp only [shiftAt] at hd3
  rw [getD_set ha, getD_set (by omega)] at hd3
  rw [getD_set (by omega)]
  by_cases e : d = a
  · rw [if_pos e, if_pos e] at hd3
    rw [if_pos e, e]; omega
  · rw [if_neg e, if_neg e] at hd3
    rw [if_neg e]; exact hd3

theorem box_lens {B C : List Nat} {a N : Nat} {p : List Nat × List Nat} (hs : Safe (B.map fun _ => 0) (B.set a N) C)
    (hp : p ∈ chunkSpec (B.map fun _ => 0) (B.set a N) C) : p.1.length = B.length ∧ p.2.length = B.length := by
  obtain ⟨q1, q2, _⟩ := chunkSpec_boxOK hs p hp
  simp only [List.length_map] at q1 q2
  exact ⟨q1, q2⟩

/-- The invariant of all reachable files. -/
theorem hist_at_inv {hst : Host} {vd a : Nat} {B chunk : List Nat} {l : List Piece} {file : List Nat} (ha : a < B.length)
    (hB : ∀ d < a, B.getD d 0 ≤ chunk.getD d 0) (hh : HistAt hst vd a B chunk l file) (hc : Small chunk)
    (hsmall : total a l < 2 ^ 64) (hsafe : Safe (B.map fun _ => 0) (B.set a (total a l)) chunk) :
    l ≠ [] ∧ ∃ b f bs, FileAt hst vd a B chunk l file b f bs := by
  induction hh with
  | @init s file hok hser =>
    have hext : total a [s] = s.along a := by simp [total]
    rw [hext] at hsafe
    have hsafe' : Safe (s.h.shape.map fun _ => 0) s.h.shape chunk := by rw [hok.zeros, hok.shape]; exact hsafe
    obtain ⟨b, hb⟩ := permitsEqual_ok hsafe'
    unfold serialize at hser
    by_cases hw : wellFormed chunk = false
    · rw [if_pos hw] at hser; cases hser
    rw [if_neg hw, hb] at hser
    simp only [Res.ok_bind] at hser
    obtain ⟨body, hbody, hser⟩ := Res.bind_eq_ok.1 hser
    have hm := serialize_ok_mode hbody
    rw [serializeChunks_eq hst hok.given chunk hsafe' s.mode hm] at hbody
    refine ⟨by simp, b, elemFn vd s.P s.st s.buf,
      (chunkSpec (s.h.shape.map fun _ => 0) s.h.shape chunk).map fun p => (p, s.mode), ?_⟩
    refine ⟨?_, ?_, ?_, ?_⟩
    · rw [← Res.ok.inj hser, ← Res.ok.inj hbody, hext, hok.len, ← hok.shape]
    · rw [List.map_map, hext, ← hok.zeros, ← hok.shape]; exact List.map_id _
    · intro x hx
      obtain ⟨p, hp, rfl⟩ := List.mem_map.1 hx
      rw [hext, ← hok.shape]
      exact boxGood_of_given hok.given s.mode hm hok.sizes (chunkSpec_boxOK hsafe' p hp)
    · intro pre s' post hl i hi x hx hix
      obtain ⟨p, hp, rfl⟩ := List.mem_map.1 hx
      have hpre : pre = [] := by
        cases pre with
        | nil => rfl
        | cons a pre => have := congrArg List.length hl; simp at this
      subst hpre
      simp only [List.nil_append, List.cons.injEq] at hl
      obtain ⟨rfl, _⟩ := hl
      show gMode s.mode (elemFn vd s.P s.st s.buf (i.set a (total a [] + i.getD a 0))) = _
      rw [show total a [] + i.getD a 0 = i.getD a 0 by simp [total], set_getD]
  | @append l file s file' hh hdvd hok happ ih =>
    have hex : total a (l ++ [s]) = total a l + s.along a := by rw [total_append]; simp [total]
    rw [hex] at hsmall hsafe
    have hcl : chunk.length = B.length := (safe_at_len hsafe).symm
    have hs1 := safe_mono_at (n := total a l) (by omega) hsafe
    have hs2 := safe_mono_at (n := s.along a) (by omega) hsafe
    obtain ⟨_, b0, f, bs, inv⟩ := ih (by omega) hs1
    have hsafe' : Safe (s.h.shape.map fun _ => 0) s.h.shape chunk := by rw [hok.zeros, hok.shape]; exact hs2
    obtain ⟨b, hb⟩ := permitsEqual_ok hsafe'
    unfold appendSlice at happ
    rw [inv.file, hok.len, sMeta_rt hst B.length ⟨chunk, B.set a (total a l), accessOf b0⟩ hcl (by simp) hc
      (small_at hok ha (by omega)) (show accessOf b0 < 2 ^ 64 by cases b0 <;> decide)] at happ
    simp only [Res.ok_bind] at happ
    by_cases hacc : accessOf b0 = 1
    · rw [if_pos hacc] at happ; cases happ
    rw [if_neg hacc] at happ
    simp only [ha, decide_true, Res.assert_true, Res.ok_bind] at happ
    by_cases hcat : shapeAllowsConcat (B.set a (total a l)) s.h.shape a = false
    · rw [if_pos hcat] at happ; cases happ
    rw [if_neg hcat, hb] at happ
    simp only [Res.ok_bind] at happ
    obtain ⟨body, hbody, hfile⟩ := Res.bind_eq_ok.1 happ
    have hm := serialize_ok_mode hbody
    rw [serializeChunks_eq hst hok.given chunk hsafe' s.mode hm] at hbody
    have hshape' : (B.set a (total a l)).set a (wadd ((B.set a (total a l)).getD a 0) (s.h.shape.getD a 0)) = B.set a (total a l + s.along a) := by
      rw [List.set_set, getD_set ha, if_pos rfl]
      rw [wadd_eq (by unfold Piece.along at hsmall; have hU : U64 = 2 ^ 64 := rfl; omega)]
      rfl
    rw [hshape', ← Res.ok.inj hbody] at hfile
    have hdrop : ((sMeta hst B.length).ser ⟨chunk, B.set a (total a l), accessOf b0⟩ ++ bs.flatMap (boxRecord hst vd f)).drop
        ((sMeta hst B.length).ser ⟨chunk, B.set a (total a l + s.along a), accessOf b⟩).length
        = bs.flatMap (boxRecord hst vd f) := by
      rw [sMeta_length _ _ _ hcl (by simp)]
      rw [← sMeta_length hst B.length ⟨chunk, B.set a (total a l), accessOf b0⟩ hcl (by simp)]
      rw [List.drop_left]
    rw [hdrop] at hfile
    let f' : List Nat → List Nat := fun i =>
      if i.getD a 0 < total a l then f i else elemFn vd s.P s.st s.buf (i.set a (i.getD a 0 - total a l))
    let nb : List ((List Nat × List Nat) × Mode) :=
      (chunkSpec (s.h.shape.map fun _ => 0) s.h.shape chunk).map fun p => (shiftAt a (total a l) p, s.mode)
    have hin_old : ∀ x ∈ bs, ∀ i, InBox x.1.1 x.1.2 i → i.getD a 0 < total a l := by
      intro x hx i hi
      have hv := (valid_of_box (inv.good x hx).leQ hi).2 a (by simpa using ha)
      rwa [getD_set ha, if_pos rfl] at hv
    have hf_old : ∀ x ∈ bs, ∀ i, InBox x.1.1 x.1.2 i → f i = f' i := by
      intro x hx i hi
      simp only [f']
      rw [if_pos (hin_old x hx i hi)]
    have hnew : ∀ p ∈ chunkSpec (s.h.shape.map fun _ => 0) s.h.shape chunk, p.1.length = p.2.length ∧ a < p.1.length ∧
          BoxGood vd s.h.shape (elemFn vd s.P s.st s.buf) (p, s.mode) := by
      intro p hp
      have hb' := chunkSpec_boxOK hsafe' p hp
      have hg := boxGood_of_given hok.given s.mode hm hok.sizes hb'
      rw [hok.zeros, hok.shape] at hp
      obtain ⟨q1, q2⟩ := box_lens hs2 hp
      exact ⟨by omega, by omega, hg⟩
    have hf_new : ∀ i, a < i.length → f' (i.set a (total a l + i.getD a 0)) = elemFn vd s.P s.st s.buf i := by
      intro i hi
      simp only [f']
      rw [if_neg (by rw [getD_set hi, if_pos rfl]; omega), set_back hi]
    have hrec_new : ∀ p ∈ chunkSpec (s.h.shape.map fun _ => 0) s.h.shape chunk,
        boxRecord hst vd (elemFn vd s.P s.st s.buf) (p, s.mode) = boxRecord hst vd f' (shiftAt a (total a l) p, s.mode) := by
      intro p hp
      obtain ⟨hlen, hal, _⟩ := hnew p hp
      unfold boxRecord
      simp only
      rw [subVec_shift hlen hal]
      congr 2
      refine elemsOf_congr fun k hk => ?_
      have hkl : p.1.length = k.length := by rw [hk.1, length_subVec hlen.symm, hlen]
      show _ = f' (addVec (p.1.set a (total a l + p.1.getD a 0)) k)
      rw [addVec_shift hkl hal, hf_new _ (by rw [addVec_length hkl]; omega)]
    refine ⟨by simp, b, f', bs ++ nb, ?_⟩
    refine ⟨?_, ?_, ?_, ?_⟩
    · have e1 : bs.flatMap (boxRecord hst vd f) = bs.flatMap (boxRecord hst vd f') :=
        flatMap_congr' fun x hx => boxRecord_congr (inv.good x hx).le.1 (hf_old x hx)
      have e2 : (chunkSpec (s.h.shape.map fun _ => 0) s.h.shape chunk).flatMap
          (fun p => boxRecord hst vd (elemFn vd s.P s.st s.buf) (p, s.mode)) = nb.flatMap (boxRecord hst vd f') := by
        simp only [nb, List.flatMap_map]
        exact flatMap_congr' hrec_new
      rw [← Res.ok.inj hfile, hex, List.flatMap_append, e1, ← e2, List.flatMap_map, List.append_assoc]
    · rw [List.map_append, inv.boxes, hex]
      simp only [nb, List.map_map]
      rw [chunkSpec_append_at ha hcl.symm hB hdvd, hok.zeros, hok.shape]
      rfl
    · intro x hx
      rw [hex]
      rcases List.mem_append.1 hx with hx | hx
      · have hg := inv.good x hx
        have hle : LeVec (B.set a (total a l)) (B.set a (total a l + s.along a)) :=
          leVec_set rfl ha (fun _ _ _ => Nat.le_refl _) (by omega)
        exact { mode := hg.mode, le := hg.le
                leQ := ⟨by rw [hg.leQ.1]; simp, fun d hd => Nat.le_trans (hg.leQ.2 d hd) (hle.2 d (by rw [← hg.leQ.1]; exact hd))⟩
                size := hg.size, small := hg.small
                elems := fun i hi => by rw [← hf_old x hx i hi]; exact hg.elems i hi }
      · obtain ⟨p, hp, rfl⟩ := List.mem_map.1 hx
        obtain ⟨hlen, hal, hg⟩ := hnew p hp
        have g1 := hg.le
        have g2 := hg.leQ
        have hpB : p.2.length = B.length := by rw [g2.1, hok.len]
        refine { mode := hm, le := ?_, leQ := ?_, size := ?_, small := ?_, elems := ?_ }
        · exact leVec_set hlen hal (fun d hd _ => g1.2 d hd) (by have := g1.2 a hal; simp only at this; omega)
        · refine leVec_set hpB (by omega) (fun d hd hda => ?_) ?_
          · have := g2.2 d hd
            simp only [hok.shape] at this
            rw [getD_set ha, if_neg hda] at this
            exact this
          · have := g2.2 a (show a < p.2.length by omega)
            simp only [hok.shape] at this
            rw [getD_set ha, if_pos rfl] at this
            omega
        · simp only [subVec_shift hlen hal]; exact hg.size
        · simp only [subVec_shift hlen hal]; exact hg.small
        · intro i hii
          obtain ⟨k1, k2⟩ := inBox_back hlen hal hii
          simp only [f']
          rw [if_neg (by omega)]
          exact hg.elems _ k2
    · intro pre s' post hl i hi x hx hix
      have hnewval : s' = s → total a pre = total a l →
          gMode x.2 (f' (i.set a (total a pre + i.getD a 0))) = gMode s'.mode (elemFn vd s'.P s'.st s'.buf i) := by
        rintro rfl htot
        rw [htot] at hix ⊢
        have hal : a < i.length := by rw [hi.1, hok.len]; exact ha
        rcases List.mem_append.1 hx with hx | hx
        · have := hin_old x hx _ hix
          rw [getD_set hal, if_pos rfl] at this
          omega
        · obtain ⟨p, hp, rfl⟩ := List.mem_map.1 hx
          rw [hf_new i hal]
      rcases List.append_eq_append_iff.1 (show l ++ [s] = pre ++ s' :: post from hl) with ⟨t, ht1, ht⟩ | ⟨t, ht1, ht⟩
      · cases t with
        | cons t0 t =>
          exfalso
          have := congrArg List.length ht
          simp at this
        | nil =>
          simp only [List.nil_append, List.cons.injEq] at ht
          rw [List.append_nil] at ht1
          exact hnewval ht.1.symm (by rw [ht1])
      · cases t with
        | nil =>
          simp only [List.nil_append, List.cons.injEq] at ht
          rw [List.append_nil] at ht1
          exact hnewval ht.1 (by rw [ht1])
        | cons t0 t =>
          simp only [List.cons_append, List.cons.injEq] at ht
          obtain ⟨rfl, ht⟩ := ht
          rcases List.mem_append.1 hx with hx | hx
          · rw [← hf_old x hx _ hix]
            exact inv.vals pre s' t ht1 i hi x hx hix
          · exfalso
            obtain ⟨p, hp, rfl⟩ := List.mem_map.1 hx
            obtain ⟨hlen, hal, _⟩ := hnew p hp
            obtain ⟨k1, k2⟩ := inBox_back hlen hal hix
            have hil : a < i.length := by
              have := hix.1
              simp only [shiftAt, List.length_set] at this
              omega
            rw [getD_set hil, if_pos rfl] at k1
            have hkl := hi.2 a (by rw [← hi.1]; exact hil)
            have hel : total a l = total a pre + (s'.along a + total a t) := by rw [ht1, total_append, total_cons]
            unfold Piece.along at hel
            omega

theorem hist_at_pieces {hst : Host} {vd a : Nat} {B chunk : List Nat} {l : List Piece} {file : List Nat}
    (hh : HistAt hst vd a B chunk l file) : ∀ s ∈ l, s.OkAt vd a B chunk := by
  induction hh with
  | init h _ => intro s hs; rw [List.mem_singleton.1 hs]; exact h
  | append _ _ h _ ih =>
    intro s hs
    rcases List.mem_append.1 hs with hs | hs
    · exact ih s hs
    · rw [List.mem_singleton.1 hs]; exact h

/-- **C16, along any axis**  Any history of appends along an axis reads back as the concatenation of the pieces along that axis, if the
    serialization chunk is at least as long as the array along all axes before it: the extent along the axis is the sum of the extents
    of the pieces, and the element at an index of a piece is found behind the extents of all pieces before it.
    `_partial`: the code accepts more than it handles (`C16_long_chunk_wrong`, `C16_other_axis_wrong`); the full property would need
    `append_slice` to refuse these. -/
theorem C16_append_along_axis_partial (hst : Host) (vd a : Nat) (B chunk : List Nat) (ha : a < B.length) (hc : Small chunk)
    (hB : ∀ d < a, B.getD d 0 ≤ chunk.getD d 0) (l : List Piece)
    (file : List Nat) (hh : HistAt hst vd a B chunk l file) (hsmall : total a l < 2 ^ 64)
    (hsafe : Safe (B.map fun _ => 0) (B.set a (total a l)) chunk)
    (Q0 dst : List Nat) (junk : Nat → Nat) (rest : List Nat) :
    ∃ out, deserialize hst vd B.length (mkHdr vd Q0) dst junk (file ++ rest)
        = .ok ((mkHdr vd (B.set a (total a l)), out), rest) ∧
      out.length = volume vd (B.set a (total a l)) ∧
      ∀ pre s post, l = pre ++ s :: post → ∀ i, ValidInd s.h.shape i →
        ∃ v v', ND.read vd s.h s.buf i = .ok v ∧
          ND.read vd (mkHdr vd (B.set a (total a l))) out (i.set a (total a pre + i.getD a 0)) = .ok v' ∧
          (s.mode = .dense → v' = v) ∧ (s.mode = .null_suppressed → Canon v v') := by
  obtain ⟨hne, b, f, bs, inv⟩ := hist_at_inv ha hB hh hc hsmall hsafe
  have hpieces := hist_at_pieces hh
  have hQ : Small (B.set a (total a l)) := by
    obtain ⟨s, hs⟩ := List.exists_mem_of_ne_nil l hne
    exact small_at (hpieces s hs) ha hsmall
  obtain ⟨out, r1, r2, r3⟩ := deserialize_records hst (vd := vd) hQ hc (accessOf b) (by cases b <;> decide)
    (by rw [zeros_set]; exact hsafe) bs (by rw [zeros_set]; exact inv.boxes) inv.good Q0 dst junk rest
  rw [List.length_set] at r1
  refine ⟨out, ?_, r2, ?_⟩
  · rw [inv.file]; exact r1
  · intro pre s post hl i hi
    have hs : s ∈ l := by rw [hl]; simp
    have hok := hpieces s hs
    have hal : a < i.length := by rw [hi.1, hok.len]; exact ha
    have hkl : i.getD a 0 < s.along a := hi.2 a (by rw [hok.len]; exact ha)
    have hel : total a l = total a pre + (s.along a + total a post) := by rw [hl, total_append, total_cons]
    have hv : ValidInd (B.set a (total a l)) (i.set a (total a pre + i.getD a 0)) := by
      refine ⟨by simp [hi.1, hok.len], fun d hd => ?_⟩
      rw [getD_set hal, getD_set ha]
      by_cases e : d = a
      · rw [if_pos e, if_pos e]; omega
      · rw [if_neg e, if_neg e]
        have := hi.2 d (by rw [hok.len]; simpa using hd)
        rw [hok.shape, getD_set ha, if_neg e] at this
        exact this
    obtain ⟨x, hx, hix, hrd⟩ := r3 _ hv
    rw [inv.vals pre s post hl i hi x hx hix] at hrd
    refine ⟨_, _, (elemFn_good hok.given hi).1, hrd, ?_, ?_⟩
    · intro hm; rw [hm]; rfl
    · intro hm; rw [hm]; exact canonV_spec _

/-! ### A history along axis 1 meets the hypotheses -/

namespace Ex16

def piece (n : Nat) (data : List Nat) : Piece := ⟨[2, n], [0, 0], mkHdr 1 [2, n], data, .dense⟩

theorem piece_ok (n : Nat) (data : List Nat) (hn : n < 2 ^ 60) (hl : data.length = 2 * n) (hb : ∀ w ∈ data, w < 2 ^ 32) (c : List Nat) :
    (piece n data).OkAt 1 1 [2, 0] c where
  given := {
    view := ViewOf.own
    small := by
      intro x hx
      have hx : x ∈ [2, n] := hx
      rcases List.mem_cons.1 hx with rfl | hx
      · decide
      · rw [List.mem_singleton.1 hx]; omega
    vd_pos := by decide
    dims := by simp [piece, mkHdr]
    len := by simp [piece, volume, numElems, hl]
    vol := by simp [piece, volume, numElems]; omega
    bits := hb }
  shape := rfl
  sizes := by intro h; cases h

def got {α : Type} : Res α → Bool
  | .ok _ => true
  | _ => false

theorem of_got {α : Type} : ∀ {r : Res α}, got r = true → ∃ x, r = .ok x
  | .ok x, _ => ⟨x, rfl⟩

/-- Chunks of 2 x 2: the array (1 2 / 3 4) with (5 6 7 / 8 9 10) appended along axis 1. -/
example : ∃ file, HistAt .little 1 1 [2, 0] [2, 2] [piece 2 [1, 2, 3, 4], piece 3 [5, 6, 7, 8, 9, 10]] file ∧
    (∀ d < 1, [2, 0].getD d 0 ≤ [2, 2].getD d 0) ∧ total 1 [piece 2 [1, 2, 3, 4], piece 3 [5, 6, 7, 8, 9, 10]] = 5 ∧
    Safe [0, 0] [2, 5] [2, 2] := by
  have h1 := piece_ok 2 [1, 2, 3, 4] (by decide) rfl (by decide) [2, 2]
  have h2 := piece_ok 3 [5, 6, 7, 8, 9, 10] (by decide) rfl (by decide) [2, 2]
  have hk : got ((serialize .little 1 (mkHdr 1 [2, 2]) [1, 2, 3, 4] [2, 2] .dense).bind fun f =>
      appendSlice .little 1 f (mkHdr 1 [2, 3]) [5, 6, 7, 8, 9, 10] 1 .dense) = true := by decide +kernel
  obtain ⟨f2, hf2⟩ := of_got hk
  obtain ⟨f1, hf1, hf2⟩ := Res.bind_eq_ok.1 hf2
  exact ⟨f2, HistAt.append (HistAt.init h1 hf1) (by decide) h2 hf2, by decide, rfl, by unfold SafeDim; decide, by unfold SafeDim; decide, trivial⟩

/-- What is read back: the concatenation along axis 1. -/
example : ((serialize .little 1 (mkHdr 1 [2, 2]) [1, 2, 3, 4] [2, 2] .dense).bind fun file =>
    (appendSlice .little 1 file (mkHdr 1 [2, 3]) [5, 6, 7, 8, 9, 10] 1 .dense).bind fun file' =>
    (deserialize .little 1 2 (mkHdr 1 [1, 1]) [0] (fun _ => 0) file').bind fun r => .ok (r.1.1.shape, r.1.2)) =
    .ok ([2, 5], [1, 2, 5, 6, 7, 3, 4, 8, 9, 10]) := by decide +kernel

end Ex16

end Verif.Stream
