import Verif.Stream.Props
/-
C16: slices appended on disk along the first axis.
-/
namespace Verif.Stream
open Verif Verif.ND Verif.Bytes Verif.NullSup

/-! ### Specification -/

/-- One array handed to `serialize` or `append_slice`: a header `h` on a buffer `buf` (window at `st` of an owning array of
    shape `P`), written with streamer mode `mode`. -/
structure Piece where
  P : List Nat
  st : List Nat
  h : Hdr
  buf : List Nat
  mode : Mode

/-- Extent along the first axis. -/
def Piece.ext (s : Piece) : Nat := s.h.shape.getD 0 0

/-- Sum of the extents along the first axis. -/
def extent : List Piece → Nat
  | [] => 0
  | s :: l => s.ext + extent l

/-- A piece exists in memory, has cross section `R`, and has no serialization chunk of `2^32` or more vectors if it is
    null-suppressed. -/
structure Piece.Ok (vd : Nat) (R chunk : List Nat) (s : Piece) : Prop where
  given : Given vd s.P s.st s.h s.buf
  shape : s.h.shape = s.ext :: R
  sizes : s.mode = .null_suppressed → ChunksBelow s.h.shape chunk

/-- The files that can be produced by one `serialize` followed by any number of successful `append_slice` calls along
    axis 0, each at a moment when the serialization chunk length along axis 0 divides the extent stored so far. -/
inductive Hist (hst : Host) (vd : Nat) (R chunk : List Nat) : List Piece → List Nat → Prop where
  | init {s file} : s.Ok vd R chunk → serialize hst vd s.h s.buf chunk s.mode = .ok file → Hist hst vd R chunk [s] file
  | append {l file s file'} : Hist hst vd R chunk l file → chunk.getD 0 0 ∣ extent l → s.Ok vd R chunk →
      appendSlice hst vd file s.h s.buf 0 s.mode = .ok file' → Hist hst vd R chunk (l ++ [s]) file'

/-! ### Lemmas -/

theorem extent_append : ∀ (a b : List Piece), extent (a ++ b) = extent a + extent b
  | [], b => by simp [extent]
  | s :: a, b => by rw [List.cons_append, extent, extent, extent_append a b]; omega

theorem chunkDimSpec_shift (n c : Nat) : ∀ b e, chunkDimSpec (n + b) (n + e) c
    = (chunkDimSpec b e c).map fun p => (n + p.1, n + p.2) := by
  intro b e
  by_cases h : b < e ∧ 0 < c
  · rw [chunkDimSpec_cons h.1 h.2, chunkDimSpec_cons (by omega) h.2, List.map_cons,
      show min (n + b + c) (n + e) = n + min (b + c) e by omega, chunkDimSpec_shift n c (min (b + c) e) e]
  · rw [chunkDimSpec, dif_neg (by omega), chunkDimSpec, dif_neg h]; rfl
termination_by b e => e - b
decreasing_by omega

theorem chunkDimSpec_append (c : Nat) (k n : Nat) : ∀ b, b + k * c = n → ∀ m,
    chunkDimSpec b (n + m) c = chunkDimSpec b n c ++ chunkDimSpec n (n + m) c := by
  induction k with
  | zero =>
    intro b hb m
    have : b = n := by omega
    subst this
    rw [chunkDimSpec_nil (Nat.le_refl b), List.nil_append]
  | succ k ih =>
    intro b hb m
    rw [Nat.succ_mul] at hb
    by_cases hc : 0 < c
    · rw [chunkDimSpec_cons (by omega) hc, chunkDimSpec_cons (e := n) (by omega) hc, List.cons_append,
        show min (b + c) (n + m) = b + c by omega, show min (b + c) n = b + c by omega, ih (b + c) (by omega) m]
    · have : c = 0 := by omega
      subst this
      have e0 : ∀ x y, chunkDimSpec x y 0 = [] := fun x y => by rw [chunkDimSpec, dif_neg (by omega)]
      rw [e0, e0, e0]; rfl

theorem flatMap_congr' {α β : Type} {f g : α → List β} : ∀ {l : List α}, (∀ x ∈ l, f x = g x) → l.flatMap f = l.flatMap g
  | [], _ => rfl
  | x :: l, h => by
      rw [List.flatMap_cons, List.flatMap_cons, h x (by simp), flatMap_congr' fun y hy => h y (by simp [hy])]

/-- Moving a box along the first axis. -/
def shiftBox (n : Nat) (p : List Nat × List Nat) : List Nat × List Nat :=
  ((n + p.1.getD 0 0) :: p.1.tail, (n + p.2.getD 0 0) :: p.2.tail)

theorem chunkSpec_append {n m c : Nat} {R cs : List Nat} (hd : c ∣ n) :
    chunkSpec (0 :: R.map fun _ => 0) ((n + m) :: R) (c :: cs)
      = chunkSpec (0 :: R.map fun _ => 0) (n :: R) (c :: cs) ++
        (chunkSpec (0 :: R.map fun _ => 0) (m :: R) (c :: cs)).map (shiftBox n) := by
  obtain ⟨k, rfl⟩ := hd
  simp only [chunkSpec]
  rw [chunkDimSpec_append c k (c * k) 0 (by rw [Nat.zero_add, Nat.mul_comm]) m, List.flatMap_append]
  congr 1
  have := chunkDimSpec_shift (c * k) c 0 m
  rw [Nat.add_zero] at this
  rw [this, List.flatMap_map, List.map_flatMap]
  congr 1
  funext o
  rw [List.map_map]
  rfl

theorem safeDim_mono {n N c : Nat} (h : SafeDim 0 N c) (hn : n ≤ N) : SafeDim 0 n c := by
  unfold SafeDim at *; omega

theorem safe_mono {n N c : Nat} {R cs : List Nat} (h : Safe ((N :: R).map fun _ => 0) (N :: R) (c :: cs)) (hn : n ≤ N) :
    Safe ((n :: R).map fun _ => 0) (n :: R) (c :: cs) := ⟨safeDim_mono h.1 hn, h.2⟩

theorem elemsOf_congr {shape : List Nat} {f g : List Nat → List Nat} (h : ∀ i, ValidInd shape i → f i = g i) :
    elemsOf shape f = elemsOf shape g := List.map_congr_left fun i hi => h i (mem_arrayElemLoop.1 hi)

theorem boxRecord_congr {h : Host} {vd : Nat} {f g : List Nat → List Nat} {x : (List Nat × List Nat) × Mode}
    (hl : x.1.1.length = x.1.2.length) (hfg : ∀ i, InBox x.1.1 x.1.2 i → f i = g i) :
    boxRecord h vd f x = boxRecord h vd g x := by
  unfold boxRecord
  rw [elemsOf_congr fun i hi => hfg _ (inBox_ext hl hi)]

/-- What is known about a file: metadata followed by good box records. -/
structure FileInv (hst : Host) (vd : Nat) (R chunk : List Nat) (l : List Piece) (file : List Nat) (b : Bool)
    (f : List Nat → List Nat) (bs : List ((List Nat × List Nat) × Mode)) : Prop where
  file : file = (sMeta hst (R.length + 1)).ser ⟨chunk, extent l :: R, accessOf b⟩ ++ bs.flatMap (boxRecord hst vd f)
  boxes : bs.map Prod.fst = chunkSpec ((extent l :: R).map fun _ => 0) (extent l :: R) chunk
  good : ∀ x ∈ bs, BoxGood vd (extent l :: R) f x
  vals : ∀ pre s post, l = pre ++ s :: post → ∀ k is, ValidInd s.h.shape (k :: is) →
    ∀ x ∈ bs, InBox x.1.1 x.1.2 ((extent pre + k) :: is) →
      gMode x.2 (f ((extent pre + k) :: is)) = gMode s.mode (elemFn vd s.P s.st s.buf (k :: is))
  modes : ∀ s ∈ l, s.mode ≠ .automatic

theorem smallR {vd : Nat} {R chunk : List Nat} {s : Piece} (h : s.Ok vd R chunk) : Small (s.ext :: R) := by
  rw [← h.shape]; exact (h.given.view.shape_small h.given.small).1

theorem leVec_cons_iff {a b : Nat} {x y : List Nat} : LeVec (a :: x) (b :: y) ↔ a ≤ b ∧ LeVec x y := by
  constructor
  · intro h
    exact ⟨by simpa using h.2 0 (by simp), by simpa using h.1, fun d hd => by simpa using h.2 (d + 1) (by simpa using hd)⟩
  · rintro ⟨h0, h1, h2⟩
    refine ⟨by simpa using h1, fun d hd => ?_⟩
    cases d with
    | zero => simpa using h0
    | succ d => simpa using h2 d (by simpa using hd)

theorem length_cons_of_ok {vd : Nat} {R chunk : List Nat} {s : Piece} (h : s.Ok vd R chunk) : s.h.shape.length = R.length + 1 := by
  rw [h.shape]; rfl

theorem serialize_ok_mode {hst : Host} {vd : Nat} {ha : Hdr} {buf chunk : List Nat} {mode : Mode} {out : List Nat}
    (h : serializeChunks hst vd ha buf chunk mode = .ok out) : mode ≠ .automatic := by
  rintro rfl
  simp [serializeChunks] at h

/-- The invariant of all reachable files. -/
theorem hist_inv {hst : Host} {vd : Nat} {R chunk : List Nat} {l : List Piece} {file : List Nat}
    (hh : Hist hst vd R chunk l file) (hc : Small chunk)
    (hsmall : extent l < 2 ^ 64) (hsafe : Safe ((extent l :: R).map fun _ => 0) (extent l :: R) chunk) :
    l ≠ [] ∧ (∃ b f bs, FileInv hst vd R chunk l file b f bs ∧ ∃ pre s, l = pre ++ [s] ∧ permitsEqual s.h.shape chunk = .ok b) := by
  induction hh with
  | @init s file hok hser =>
    have hext : extent [s] = s.ext := by simp [extent]
    rw [hext] at hsafe
    have hsafe' : Safe (s.h.shape.map fun _ => 0) s.h.shape chunk := by rw [hok.shape]; exact hsafe
    obtain ⟨b, hb⟩ := permitsEqual_ok hsafe'
    unfold serialize at hser
    by_cases hw : wellFormed chunk = false
    · rw [if_pos hw] at hser; cases hser
    rw [if_neg hw, hb] at hser
    simp only [Res.ok_bind] at hser
    obtain ⟨body, hbody, hser⟩ := Res.bind_eq_ok.1 hser
    have hm := serialize_ok_mode hbody
    rw [serializeChunks_eq hst hok.given chunk hsafe' s.mode hm] at hbody
    refine ⟨by simp, b, elemFn vd s.P s.st s.buf,
      (chunkSpec (s.h.shape.map fun _ => 0) s.h.shape chunk).map fun p => (p, s.mode), ?_, [], s, rfl, hb⟩
    refine ⟨?_, ?_, ?_, ?_, by simpa using hm⟩
    · rw [← Res.ok.inj hser, ← Res.ok.inj hbody, hext, length_cons_of_ok hok, ← hok.shape]
    · rw [List.map_map, hext, ← hok.shape]; exact List.map_id _
    · intro x hx
      obtain ⟨p, hp, rfl⟩ := List.mem_map.1 hx
      rw [hext, ← hok.shape]
      exact boxGood_of_given hok.given s.mode hm hok.sizes (chunkSpec_boxOK hsafe' p hp)
    · intro pre s' post hl k is hk x hx hix
      obtain ⟨p, hp, rfl⟩ := List.mem_map.1 hx
      have hpre : pre = [] := by
        cases pre with
        | nil => rfl
        | cons a pre => have := congrArg List.length hl; simp at this
      subst hpre
      simp only [List.nil_append, List.cons.injEq] at hl
      obtain ⟨rfl, _⟩ := hl
      simp [extent]
  | @append l file s file' hh hdvd hok happ ih =>
    have hex : extent (l ++ [s]) = extent l + s.ext := by rw [extent_append]; simp [extent]
    rw [hex] at hsmall hsafe
    have hcl := hsafe.len
    obtain ⟨c, cs, rfl⟩ : ∃ c cs, chunk = c :: cs := by
      cases chunk with
      | nil => simp at hcl
      | cons c cs => exact ⟨c, cs, rfl⟩
    simp only [List.getD_cons_zero] at hdvd
    have hs1 := safe_mono hsafe (n := extent l) (by omega)
    have hs2 := safe_mono hsafe (n := s.ext) (by omega)
    have hsm := smallR hok
    have hR : Small R := fun x hx => hsm x (by simp [hx])
    obtain ⟨_, b0, f, bs, inv, pre0, s0, hl0, hb0⟩ := ih (by omega) hs1
    have hsafe' : Safe (s.h.shape.map fun _ => 0) s.h.shape (c :: cs) := by rw [hok.shape]; exact hs2
    obtain ⟨b, hb⟩ := permitsEqual_ok hsafe'
    have hcl' : (c :: cs).length = R.length + 1 := by simp at hcl ⊢; omega
    -- unfold the call
    unfold appendSlice at happ
    rw [inv.file, length_cons_of_ok hok, sMeta_rt hst (R.length + 1) ⟨c :: cs, extent l :: R, accessOf b0⟩ hcl' (by simp) hc
      (by intro x hx; rcases List.mem_cons.1 hx with rfl | hx; · omega
          · exact hR x hx) (show accessOf b0 < 2 ^ 64 by cases b0 <;> decide)] at happ
    simp only [Res.ok_bind] at happ
    by_cases hacc : accessOf b0 = 1
    · rw [if_pos hacc] at happ; cases happ
    rw [if_neg hacc] at happ
    simp only [Nat.zero_lt_succ, decide_true, Res.assert_true, Res.ok_bind] at happ
    by_cases hcat : shapeAllowsConcat (extent l :: R) s.h.shape 0 = false
    · rw [if_pos hcat] at happ; cases happ
    rw [if_neg hcat, hb] at happ
    simp only [Res.ok_bind] at happ
    obtain ⟨body, hbody, hfile⟩ := Res.bind_eq_ok.1 happ
    have hm := serialize_ok_mode hbody
    rw [serializeChunks_eq hst hok.given (c :: cs) hsafe' s.mode hm] at hbody
    have hshape' : (extent l :: R).set 0 (wadd ((extent l :: R).getD 0 0) (s.h.shape.getD 0 0)) = (extent l + s.ext) :: R := by
      rw [List.set_cons_zero, List.getD_cons_zero]
      rw [wadd_eq (by unfold Piece.ext at hsmall; have hU : U64 = 2 ^ 64 := rfl; omega)]
      rfl
    rw [hshape', ← Res.ok.inj hbody] at hfile
    have hdrop : ((sMeta hst (R.length + 1)).ser ⟨c :: cs, extent l :: R, accessOf b0⟩ ++ bs.flatMap (boxRecord hst vd f)).drop
        ((sMeta hst (R.length + 1)).ser ⟨c :: cs, (extent l + s.ext) :: R, accessOf b⟩).length
        = bs.flatMap (boxRecord hst vd f) := by
      rw [sMeta_length _ _ _ hcl' (by simp)]
      rw [← sMeta_length hst (R.length + 1) ⟨c :: cs, extent l :: R, accessOf b0⟩ hcl' (by simp)]
      rw [List.drop_left]
    rw [hdrop] at hfile
    -- the new element function and boxes
    let f' : List Nat → List Nat := fun i =>
      if i.getD 0 0 < extent l then f i else elemFn vd s.P s.st s.buf ((i.getD 0 0 - extent l) :: i.tail)
    let nb : List ((List Nat × List Nat) × Mode) :=
      (chunkSpec (s.h.shape.map fun _ => 0) s.h.shape (c :: cs)).map fun p => (shiftBox (extent l) p, s.mode)
    have hin_old : ∀ x ∈ bs, ∀ i, InBox x.1.1 x.1.2 i → i.getD 0 0 < extent l := by
      intro x hx i hi
      have hv := valid_of_box (inv.good x hx).leQ hi
      simpa using hv.2 0 (by simp)
    have hf_old : ∀ x ∈ bs, ∀ i, InBox x.1.1 x.1.2 i → f i = f' i := by
      intro x hx i hi
      simp only [f']
      rw [if_pos (hin_old x hx i hi)]
    -- facts on new boxes
    have hnew : ∀ p ∈ chunkSpec (s.h.shape.map fun _ => 0) s.h.shape (c :: cs),
        ∃ a lo z hi, p = (a :: lo, z :: hi) ∧ lo.length = hi.length ∧
          BoxGood vd s.h.shape (elemFn vd s.P s.st s.buf) (p, s.mode) := by
      intro p hp
      have hb' := chunkSpec_boxOK hsafe' p hp
      have hg := boxGood_of_given hok.given s.mode hm hok.sizes hb'
      obtain ⟨p1, p2⟩ := p
      obtain ⟨q1, q2, _⟩ := hb'
      simp only [List.length_map, length_cons_of_ok hok] at q1 q2
      cases p1 with
      | nil => simp at q1
      | cons a lo =>
        cases p2 with
        | nil => simp at q2
        | cons z hi => exact ⟨a, lo, z, hi, rfl, by simp at q1 q2; omega, hg⟩
    have hrec_new : ∀ p ∈ chunkSpec (s.h.shape.map fun _ => 0) s.h.shape (c :: cs),
        boxRecord hst vd (elemFn vd s.P s.st s.buf) (p, s.mode) = boxRecord hst vd f' (shiftBox (extent l) p, s.mode) := by
      intro p hp
      obtain ⟨a, lo, z, hi, rfl, hlen, hg⟩ := hnew p hp
      unfold boxRecord shiftBox
      simp only [List.getD_cons_zero, List.tail_cons]
      rw [show subVec ((extent l + z) :: hi) ((extent l + a) :: lo) = subVec (z :: hi) (a :: lo) by
        simp only [subVec, List.zipWith_cons_cons]; congr 1; omega]
      rw [elemsOf_congr (g := fun k => f' (addVec ((extent l + a) :: lo) k))]
      intro k hk
      cases k with
      | nil => exact absurd hk.1 (by simp [subVec])
      | cons k0 k =>
        simp only [addVec, List.zipWith_cons_cons, f', List.getD_cons_zero, List.tail_cons]
        rw [if_neg (by omega)]
        congr 2; omega
    refine ⟨by simp, b, f', bs ++ nb, ?_, l, s, rfl, hb⟩
    refine ⟨?_, ?_, ?_, ?_, ?_⟩
    · have e1 : bs.flatMap (boxRecord hst vd f) = bs.flatMap (boxRecord hst vd f') :=
        flatMap_congr' fun x hx => boxRecord_congr (inv.good x hx).le.1 (hf_old x hx)
      have e2 : (chunkSpec (s.h.shape.map fun _ => 0) s.h.shape (c :: cs)).flatMap
          (fun p => boxRecord hst vd (elemFn vd s.P s.st s.buf) (p, s.mode)) = nb.flatMap (boxRecord hst vd f') := by
        simp only [nb, List.flatMap_map]
        exact flatMap_congr' hrec_new
      rw [← Res.ok.inj hfile, hex, List.flatMap_append, e1, ← e2, List.flatMap_map, List.append_assoc]
    · rw [List.map_append, inv.boxes, hex]
      simp only [nb, List.map_map]
      rw [show (List.map (fun _ => 0) ((extent l + s.ext) :: R)) = 0 :: R.map fun _ => 0 from rfl, chunkSpec_append hdvd,
        hok.shape]
      rfl
    · intro x hx
      rw [hex]
      rcases List.mem_append.1 hx with hx | hx
      · have hg := inv.good x hx
        have hle : LeVec (extent l :: R) ((extent l + s.ext) :: R) := leVec_cons_iff.2 ⟨by omega, rfl, fun _ _ => Nat.le_refl _⟩
        exact { mode := hg.mode, le := hg.le
                leQ := ⟨by rw [hg.leQ.1]; rfl, fun d hd => Nat.le_trans (hg.leQ.2 d hd) (hle.2 d (by rw [← hg.leQ.1]; exact hd))⟩
                size := hg.size, small := hg.small
                elems := fun i hi => by rw [← hf_old x hx i hi]; exact hg.elems i hi }
      · obtain ⟨p, hp, rfl⟩ := List.mem_map.1 hx
        obtain ⟨a, lo, z, hi, rfl, hlen, hg⟩ := hnew p hp
        have g1 := hg.le
        have g2 := hg.leQ
        simp only [hok.shape] at g1 g2
        rw [leVec_cons_iff] at g1 g2
        have hsub : subVec ((extent l + z) :: hi) ((extent l + a) :: lo) = subVec (z :: hi) (a :: lo) := by
          simp only [subVec, List.zipWith_cons_cons]; congr 1; omega
        refine { mode := hm, le := ?_, leQ := ?_, size := ?_, small := ?_, elems := ?_ }
        · exact leVec_cons_iff.2 ⟨by simp; omega, g1.2⟩
        · exact leVec_cons_iff.2 ⟨by simp; omega, g2.2⟩
        · simp only [shiftBox, List.getD_cons_zero, List.tail_cons, hsub]; exact hg.size
        · simp only [shiftBox, List.getD_cons_zero, List.tail_cons, hsub]; exact hg.small
        · intro i hii
          simp only [shiftBox, List.getD_cons_zero, List.tail_cons] at hii
          cases i with
          | nil => exact absurd hii.1 (by simp)
          | cons i0 is =>
            rw [inBox_cons] at hii
            simp only [f', List.getD_cons_zero, List.tail_cons]
            have := hii.1.1
            rw [if_neg (by omega)]
            exact hg.elems _ (inBox_cons.2 ⟨⟨by omega, by omega⟩, hii.2⟩)
    · intro pre s' post hl k is hk x hx hix
      have hnewval : ∀ j, InBox x.1.1 x.1.2 ((extent l + j) :: is) →
          gMode x.2 (f' ((extent l + j) :: is)) = gMode s.mode (elemFn vd s.P s.st s.buf (j :: is)) := by
        intro j hix
        rcases List.mem_append.1 hx with hx | hx
        · have := hin_old x hx _ hix
          simp only [List.getD_cons_zero] at this
          omega
        · obtain ⟨p, hp, rfl⟩ := List.mem_map.1 hx
          simp only [f', List.getD_cons_zero, List.tail_cons]
          rw [if_neg (by omega), Nat.add_sub_cancel_left]
      rcases List.append_eq_append_iff.1 (show l ++ [s] = pre ++ s' :: post from hl) with ⟨t, ht1, ht⟩ | ⟨t, ht1, ht⟩
      · cases t with
        | cons t0 t =>
          exfalso
          have := congrArg List.length ht
          simp at this
        | nil =>
          simp only [List.nil_append, List.cons.injEq] at ht
          obtain ⟨rfl, _⟩ := ht
          rw [List.append_nil] at ht1
          subst ht1
          exact hnewval k hix
      · cases t with
        | nil =>
          simp only [List.nil_append, List.cons.injEq] at ht
          obtain ⟨rfl, _⟩ := ht
          rw [List.append_nil] at ht1
          subst ht1
          exact hnewval k hix
        | cons t0 t =>
          simp only [List.cons_append, List.cons.injEq] at ht
          obtain ⟨rfl, ht⟩ := ht
          subst ht1
          have hkl : k < s'.ext := by
            have := hk.2 0 (by have := hk.1; simp at this; omega)
            simpa [Piece.ext] using this
          have hel : extent (pre ++ s' :: t) = extent pre + (s'.ext + extent t) := by rw [extent_append]; rfl
          have hlt : extent pre + k < extent (pre ++ s' :: t) := by omega
          rcases List.mem_append.1 hx with hx | hx
          · rw [← hf_old x hx _ hix]
            exact inv.vals pre s' t rfl k is hk x hx hix
          · exfalso
            obtain ⟨p, hp, rfl⟩ := List.mem_map.1 hx
            obtain ⟨a, lo, z, hi, rfl, _, _⟩ := hnew p hp
            simp only [shiftBox, List.getD_cons_zero, List.tail_cons] at hix
            rw [inBox_cons] at hix
            have := hix.1.1
            omega
    · intro s' hs'
      rcases List.mem_append.1 hs' with h | h
      · exact inv.modes s' h
      · rw [List.mem_singleton.1 h]; exact hm

theorem hist_pieces {hst : Host} {vd : Nat} {R chunk : List Nat} {l : List Piece} {file : List Nat}
    (hh : Hist hst vd R chunk l file) : ∀ s ∈ l, s.Ok vd R chunk := by
  induction hh with
  | init h _ => intro s hs; rw [List.mem_singleton.1 hs]; exact h
  | append _ _ h _ ih =>
    intro s hs
    rcases List.mem_append.1 hs with hs | hs
    · exact ih s hs
    · rw [List.mem_singleton.1 hs]; exact h

/-- **C16**  Any history of appends along the first axis reads back as the concatenation of the pieces: the shape is the sum
    of the extents, and the element at offset `k` of a piece is found behind the extents of all pieces before it (bit by bit
    if the piece was dense, zero vectors as `+0` if it was null-suppressed).
    `_partial`: the code accepts more than it handles - see the counterexamples below; the full property would need
    `append_slice` to refuse these. -/
theorem C16_append_slice_partial (hst : Host) (vd : Nat) (R chunk : List Nat) (hc : Small chunk) (l : List Piece)
    (file : List Nat) (hh : Hist hst vd R chunk l file) (hsmall : extent l < 2 ^ 64)
    (hsafe : Safe ((extent l :: R).map fun _ => 0) (extent l :: R) chunk)
    (Q0 dst : List Nat) (junk : Nat → Nat) (rest : List Nat) :
    ∃ out, deserialize hst vd (R.length + 1) (mkHdr vd Q0) dst junk (file ++ rest)
        = .ok ((mkHdr vd (extent l :: R), out), rest) ∧
      out.length = volume vd (extent l :: R) ∧
      ∀ pre s post, l = pre ++ s :: post → ∀ k is, ValidInd s.h.shape (k :: is) →
        ∃ v v', ND.read vd s.h s.buf (k :: is) = .ok v ∧
          ND.read vd (mkHdr vd (extent l :: R)) out ((extent pre + k) :: is) = .ok v' ∧
          (s.mode = .dense → v' = v) ∧ (s.mode = .null_suppressed → Canon v v') := by
  obtain ⟨hne, b, f, bs, inv, _⟩ := hist_inv hh hc hsmall hsafe
  have hpieces := hist_pieces hh
  have hQ : Small (extent l :: R) := by
    obtain ⟨s, hs⟩ := List.exists_mem_of_ne_nil l hne
    have := smallR (hpieces s hs)
    intro x hx
    rcases List.mem_cons.1 hx with rfl | hx
    · exact hsmall
    · exact this x (by simp [hx])
  obtain ⟨out, r1, r2, r3⟩ := deserialize_records hst (vd := vd) hQ hc (accessOf b) (by cases b <;> decide) hsafe bs inv.boxes
    inv.good Q0 dst junk rest
  refine ⟨out, ?_, r2, ?_⟩
  · rw [inv.file]; exact r1
  · intro pre s post hl k is hk
    have hs : s ∈ l := by rw [hl]; simp
    have hok := hpieces s hs
    have hkl : k < s.ext := by
      have := hk.2 0 (by have := hk.1; simp at this; omega)
      simpa [Piece.ext] using this
    have hel : extent l = extent pre + (s.ext + extent post) := by rw [hl, extent_append]; rfl
    have hv : ValidInd (extent l :: R) ((extent pre + k) :: is) := by
      rw [hok.shape, validInd_cons] at hk
      exact validInd_cons.2 ⟨by omega, hk.2⟩
    obtain ⟨x, hx, hix, hrd⟩ := r3 _ hv
    rw [inv.vals pre s post hl k is hk x hx hix] at hrd
    refine ⟨_, _, (elemFn_good hok.given hk).1, hrd, ?_, ?_⟩
    · intro hm; rw [hm]; rfl
    · intro hm; rw [hm]; exact canonV_spec _

/-- **C16**  When an append is accepted: if along every axis the serialization chunk divides the extent of the last piece
    written (or is at least as long), the next piece with the same cross section is appended without an error. -/
theorem C16_append_accepted (hst : Host) (vd : Nat) (R chunk : List Nat) (hc : Small chunk) (l : List Piece) (s0 : Piece)
    (file : List Nat) (hh : Hist hst vd R chunk (l ++ [s0]) file) (hsmall : extent (l ++ [s0]) < 2 ^ 64)
    (hsafe : Safe ((extent (l ++ [s0]) :: R).map fun _ => 0) (extent (l ++ [s0]) :: R) chunk)
    (hfit : ∀ d < s0.h.shape.length, s0.h.shape.getD d 0 ≤ chunk.getD d 0 ∨ chunk.getD d 0 ∣ s0.h.shape.getD d 0)
    (s : Piece) (hs : s.Ok vd R chunk) (hm : s.mode ≠ .automatic)
    (hss : Safe (s.h.shape.map fun _ => 0) s.h.shape chunk) :
    ∃ file', appendSlice hst vd file s.h s.buf 0 s.mode = .ok file' := by
  obtain ⟨hne, b, f, bs, inv, pre, s1, hl, hb⟩ := hist_inv hh hc hsmall hsafe
  obtain ⟨rfl, hs1⟩ := List.append_inj' hl rfl
  rw [List.cons.injEq] at hs1
  obtain ⟨rfl, _⟩ := hs1
  have hcl := hsafe.len
  have hcl' : chunk.length = R.length + 1 := by simp at hcl; omega
  have hb' : b = true := by
    have key : ∀ (a c : List Nat) b, permitsEqual a c = .ok b → (∀ d < a.length, a.getD d 0 ≤ c.getD d 0 ∨ c.getD d 0 ∣ a.getD d 0) →
        b = true := by
      intro a
      induction a with
      | nil => intro c b h _; cases c <;> simp [permitsEqual] at h <;> exact h
      | cons a as ih =>
        intro c b h hf
        cases c with
        | nil => simp [permitsEqual] at h; exact h
        | cons c cs =>
          have ih' := fun h => ih cs b h fun d hd => by simpa using hf (d + 1) (by simpa using hd)
          have h0 := hf 0 (by simp)
          simp only [List.getD_cons_zero] at h0
          unfold permitsEqual at h
          by_cases hlt : c < a
          · rw [if_pos hlt] at h
            by_cases hz : c = 0
            · rw [if_pos hz] at h; cases h
            rw [if_neg hz, if_neg] at h
            · exact ih' h
            · have : c ∣ a := by omega
              simp [Nat.mod_eq_zero_of_dvd this]
          · rw [if_neg hlt] at h; exact ih' h
    exact key _ _ _ hb hfit
  subst hb'
  have hR : Small R := fun x hx => smallR hs x (by simp [hx])
  obtain ⟨b2, hb2⟩ := permitsEqual_ok hss
  have hcat : shapeAllowsConcat (extent (l ++ [s0]) :: R) s.h.shape 0 = true := by
    rw [hs.shape]
    simp only [shapeAllowsConcat, List.all_eq_true, List.mem_range, Bool.or_eq_true, beq_iff_eq]
    intro d hd
    cases d with
    | zero => left; rfl
    | succ d => right; simp
  · unfold appendSlice
    rw [inv.file, length_cons_of_ok hs, sMeta_rt hst (R.length + 1) ⟨chunk, extent (l ++ [s0]) :: R, accessOf true⟩ hcl' (by simp) hc
      (by intro x hx; rcases List.mem_cons.1 hx with rfl | hx; · exact hsmall
          · exact hR x hx) (show accessOf true < 2 ^ 64 by decide)]
    simp only [Res.ok_bind]
    rw [if_neg (by decide)]
    simp only [Nat.zero_lt_succ, decide_true, Res.assert_true, Res.ok_bind]
    rw [if_neg (by rw [hcat]; simp), hb2]
    simp only [Res.ok_bind]
    rw [serializeChunks_eq hst hs.given chunk hss s.mode hm]
    exact ⟨_, rfl⟩

/-- **C16**  Appending to a file whose metadata forbids it throws, for every slice; in particular after `mark_as_final`. -/
theorem C16_final_is_final (hst : Host) (vd : Nat) (m : SMeta) (body : List Nat) (dims : Nat)
    (h1 : m.ser_chunk.length = dims) (h2 : m.array_shape.length = dims) (s1 : Small m.ser_chunk) (s2 : Small m.array_shape)
    (h3 : m.access < 2) (hs : Hdr) (hd : hs.shape.length = dims) (src : List Nat) (axis : Nat) (mode : Mode) :
    ∃ file', markAsFinal hst dims ((sMeta hst dims).ser m ++ body) = .ok file' ∧
      file' = (sMeta hst dims).ser { m with access := 1 } ++ body ∧
      appendSlice hst vd file' hs src axis mode = .throw := by
  have key : appendSlice hst vd ((sMeta hst dims).ser { m with access := 1 } ++ body) hs src axis mode = .throw := by
    unfold appendSlice
    rw [hd, sMeta_rt hst dims { m with access := 1 } h1 h2 s1 s2 (show 1 < 2 ^ 64 by decide)]
    simp only [Res.ok_bind]
    rw [if_pos trivial]
  refine ⟨_, ?_, rfl, key⟩
  unfold markAsFinal
  rw [sMeta_rt hst dims m h1 h2 s1 s2 (by omega)]
  simp only [Res.ok_bind]
  by_cases hm : m.access ≠ 1
  · rw [if_pos hm, sMeta_length hst dims { m with access := 1 } h1 h2, ← sMeta_length hst dims m h1 h2, List.drop_left]
  · rw [if_neg hm]
    have : m.access = 1 := by omega
    obtain ⟨a, b, c⟩ := m
    simp only at this
    subst this
    rfl

/-- **C16**  A slice with a different cross section is refused with an exception. -/
theorem C16_incompatible_refused (hst : Host) (vd : Nat) (m : SMeta) (body : List Nat)
    (hs : Hdr) (h1 : m.ser_chunk.length = hs.shape.length) (h2 : m.array_shape.length = hs.shape.length)
    (s1 : Small m.ser_chunk) (s2 : Small m.array_shape)
    (h3 : m.access < 2) (src : List Nat) (axis : Nat) (ha : axis < hs.shape.length) (mode : Mode)
    (hbad : ∃ d < hs.shape.length, d ≠ axis ∧ hs.shape.getD d 0 ≠ m.array_shape.getD d 0) :
    appendSlice hst vd ((sMeta hst hs.shape.length).ser m ++ body) hs src axis mode = .throw := by
  unfold appendSlice
  rw [sMeta_rt hst _ m h1 h2 s1 s2 (by omega)]
  simp only [Res.ok_bind]
  by_cases hm : m.access = 1
  · rw [if_pos hm]
  · rw [if_neg hm, decide_eq_true ha]
    simp only [Res.assert_true, Res.ok_bind]
    rw [if_pos]
    obtain ⟨d, hd, hne, hv⟩ := hbad
    simp only [shapeAllowsConcat, List.all_eq_false, List.mem_range]
    exact ⟨d, by omega, by simp [hne]; exact fun h => hv h.symm⟩

/-! ### Where the full property fails -/

/-- Write a 1-dimensional array `a`, append `b`, read back. -/
def appendAndRead (chunk a b : List Nat) : Res (List Nat) :=
  (serialize .little 1 (mkHdr 1 [a.length]) a chunk .dense).bind fun file =>
  (appendSlice .little 1 file (mkHdr 1 [b.length]) b 0 .dense).bind fun file' =>
  (deserialize .little 1 1 (mkHdr 1 [1]) [0] (fun _ => 0) file').bind fun r => .ok r.1.2

/-- The good case: chunk length 2 divides both. -/
example : appendAndRead [2] [1, 2, 3, 4] [5, 6] = .ok [1, 2, 3, 4, 5, 6] := by decide +kernel

/-- **C16** fails: with a chunk longer than the array the append is accepted, and the file cannot be read back any more
    (reads past the end of the words of the first record). -/
theorem C16_long_chunk_wrong : appendAndRead [4] [1, 2] [3, 4] = .ub := by decide +kernel

/-- Write a 2x2 array of 1-vectors `a`, append the 2x2 array `b` along axis 1, with chunks of 1x2; read back. -/
def appendAxis1 (a b : List Nat) : Res (List Nat) :=
  (serialize .little 1 (mkHdr 1 [2, 2]) a [1, 2] .dense).bind fun file =>
  (appendSlice .little 1 file (mkHdr 1 [2, 2]) b 1 .dense).bind fun file' =>
  (deserialize .little 1 2 (mkHdr 1 [1, 1]) [0] (fun _ => 0) file').bind fun r => .ok r.1.2

/-- **C16** fails: appending along another axis is accepted and silently permutes the data; the concatenation along axis 1
    would be `[1, 2, 5, 6, 3, 4, 7, 8]`. -/
theorem C16_other_axis_wrong : appendAxis1 [1, 2, 3, 4] [5, 6, 7, 8] = .ok [1, 2, 3, 4, 5, 6, 7, 8] := by decide +kernel

/-! A history with one append meets the hypotheses. -/
def exPiece (data : List Nat) : Piece := ⟨[data.length], [0], mkHdr 1 [data.length], data, .dense⟩

theorem exPiece_ok (data : List Nat) (h : data.length < 2 ^ 62) (hb : ∀ w ∈ data, w < 2 ^ 32) (c : List Nat) :
    (exPiece data).Ok 1 [] c where
  given := {
    view := ViewOf.own
    small := by intro x hx; rw [List.mem_singleton.1 hx]; omega
    vd_pos := by decide
    dims := by simp [exPiece, mkHdr]
    len := by simp [exPiece, volume, numElems]
    vol := by simp [exPiece, volume, numElems]; omega
    bits := hb }
  shape := rfl
  sizes := by intro h; cases h

example : ∃ file, Hist .little 1 [] [2] [exPiece [1, 2, 3, 4], exPiece [5, 6]] file ∧
    Safe [0] [extent [exPiece [1, 2, 3, 4], exPiece [5, 6]]] [2] := by
  have h1 := exPiece_ok [1, 2, 3, 4] (by decide) (by decide) [2]
  have h2 := exPiece_ok [5, 6] (by decide) (by decide) [2]
  obtain ⟨f1, hf1⟩ : ∃ f, serialize .little 1 (exPiece [1, 2, 3, 4]).h (exPiece [1, 2, 3, 4]).buf [2] .dense = .ok f := by
    obtain ⟨f, hf, _⟩ := C15_round_trip .little 1 _ _ _ _ h1.given [2] (by unfold Small; decide) ⟨2, by decide⟩
      ⟨by unfold SafeDim; decide, trivial⟩ .dense (by decide) (by intro h; cases h)
    exact ⟨f, hf⟩
  have hh := Hist.init h1 hf1
  have hsafe : Safe [0] [4] [2] := ⟨by unfold SafeDim; decide, trivial⟩
  obtain ⟨f2, hf2⟩ := C16_append_accepted .little 1 [] [2] (by unfold Small; decide) [] _ f1 hh (by decide) hsafe
    (by decide) (exPiece [5, 6]) h2 (by decide) ⟨by unfold SafeDim; decide, trivial⟩
  exact ⟨f2, Hist.append hh (by decide) h2 hf2, by unfold SafeDim; decide, trivial⟩

end Verif.Stream
