import Verif.Ops.Downsample
/-
C34: downsampling a large array piece by piece.
-/
namespace Verif.Ops
open Verif Verif.ND

/-! ### Specification -/

/-- An array at a place in a grid. -/
structure Part (S : Type) where
  start : List Nat
  shape : List Nat
  data : List S

/-- The array covers element `i` of the grid. -/
def Part.Has (p : Part S) (i : List Nat) : Prop := InBox p.start (addVec p.start p.shape) i

/-- The value at element `i` of the grid. -/
def Part.at (vd : Nat) (p : Part S) (i : List Nat) : Res (List S) := read vd (mkHdr vd p.shape) p.data (subVec i p.start)

/-- `whole` is divided into `parts`: they cover the same elements, no element is in two of them, and the values are the same. -/
structure Divides (vd : Nat) (whole : Part S) (parts : List (Part S)) : Prop where
  covers : ∀ i, whole.Has i ↔ ∃ p ∈ parts, p.Has i
  apart : parts.Pairwise fun p q => ∀ i, ¬ (p.Has i ∧ q.Has i)
  values : ∀ p ∈ parts, ∀ i, p.Has i → ∃ v, p.at vd i = .ok v ∧ whole.at vd i = .ok v

/-- A well-formed array that may be downsampled by `ds`. -/
structure Part.Ok (vd : Nat) (ds : List Nat) (p : Part S) : Prop where
  len : p.data.length = volume vd p.shape
  args : DsOk p.start p.shape ds

/-- Downsampling an array into a fresh array. -/
def Part.down (vd : Nat) (ds : List Nat) (junk : Nat → S) (p : Part S) (Q : List Nat) (old : List S) : Res (Part S) :=
  (downsample vd (mkHdr vd p.shape) p.data p.start ds (mkHdr vd Q) old junk).bind fun r => .ok ⟨r.2, r.1.1.shape, r.1.2⟩

/-! ### Proof -/

theorem Part.Ok.small {vd : Nat} {ds : List Nat} {p : Part S} (h : p.Ok vd ds) : Small p.shape := by
  apply small_of_getD
  intro d hd
  have := h.args.fits d hd
  omega

theorem down_ok {vd : Nat} {ds : List Nat} (junk : Nat → S) {p : Part S} (h : p.Ok vd ds) (Q : List Nat) (old : List S) :
    ∃ r, p.down vd ds junk Q old = .ok r ∧ IsDown vd (mkHdr vd p.shape) p.data p.start ds r.start r.shape r.data := by
  obtain ⟨s', sh, out, e1, _, e3⟩ := C34_downsample vd p.shape _ _ h.small ViewOf.own p.data h.len p.start ds h.args Q old junk
  refine ⟨⟨s', sh, out⟩, ?_, e3⟩
  unfold Part.down
  rw [e1]; rfl

theorem isDown_has {vd : Nat} {ds : List Nat} {p r : Part S} (h : IsDown vd (mkHdr vd p.shape) p.data p.start ds r.start r.shape r.data) {j : List Nat} :
    r.Has j ↔ j.length = ds.length ∧ p.Has (onFine j ds) := by
  constructor
  · intro hj
    have hl : j.length = ds.length := by rw [hj.1]; exact h.lens.1
    exact ⟨hl, (h.same j hl).1 hj⟩
  · rintro ⟨hl, hj⟩
    exact (h.same j hl).2 hj

theorem isDown_at {vd : Nat} {ds : List Nat} {p r : Part S} (h : IsDown vd (mkHdr vd p.shape) p.data p.start ds r.start r.shape r.data) {j : List Nat} (hj : r.Has j) :
    ∃ v, r.at vd j = .ok v ∧ p.at vd (onFine j ds) = .ok v := by
  obtain ⟨v, h1, h2, _⟩ := h.elems j hj
  exact ⟨v, h1, h2⟩

/-- **C34** (pieces).  If an array is divided into pieces, in any way, and each piece is downsampled on its own, then the results divide the downsampled
    array: together they cover it, without overlaps, with the same values. -/
theorem C34_pieces (vd : Nat) (ds : List Nat) (junk : Nat → S) (whole : Part S) (parts : List (Part S)) (hw : whole.Ok vd ds) (hp : ∀ p ∈ parts, p.Ok vd ds)
    (hd : Divides vd whole parts) (Q : List Nat) (old : List S) :
    ∃ (w : Part S) (rs : List (Part S)), whole.down vd ds junk Q old = .ok w ∧ rs.length = parts.length ∧
      (∀ (k : Nat) (p : Part S), parts[k]? = some p → ∃ r, rs[k]? = some r ∧ p.down vd ds junk Q old = .ok r) ∧ Divides vd w rs := by
  obtain ⟨w, w1, w2⟩ := down_ok junk hw Q old
  have key : ∀ ps : List (Part S), (∀ p ∈ ps, p.Ok vd ds) → ∃ rs : List (Part S), rs.length = ps.length ∧
      ∀ (k : Nat) (p : Part S), ps[k]? = some p → ∃ r, rs[k]? = some r ∧ p.down vd ds junk Q old = .ok r ∧
        IsDown vd (mkHdr vd p.shape) p.data p.start ds r.start r.shape r.data := by
    intro ps
    induction ps with
    | nil => intro _; exact ⟨[], rfl, fun k p h => by simp at h⟩
    | cons p ps ih =>
      intro h
      obtain ⟨rs, e1, e2⟩ := ih fun q hq => h q (by simp [hq])
      obtain ⟨r, r1, r2⟩ := down_ok junk (h p (by simp)) Q old
      refine ⟨r :: rs, by simp [e1], fun k q hk => ?_⟩
      rcases k with _ | k
      · simp at hk; subst hk; exact ⟨r, by simp, r1, r2⟩
      · simp only [List.getElem?_cons_succ] at hk ⊢
        exact e2 k q hk
  obtain ⟨rs, e1, e2⟩ := key parts hp
  have back : ∀ (k : Nat) (r : Part S), rs[k]? = some r → ∃ p, parts[k]? = some p ∧ IsDown vd (mkHdr vd p.shape) p.data p.start ds r.start r.shape r.data := by
    intro k r hk
    have hlt : k < parts.length := by rw [← e1]; exact (List.getElem?_eq_some_iff.1 hk).1
    obtain ⟨r', h1, _, h3⟩ := e2 k parts[k] (List.getElem?_eq_getElem hlt)
    rw [hk] at h1
    cases h1
    exact ⟨_, List.getElem?_eq_getElem hlt, h3⟩
  refine ⟨w, rs, w1, e1, fun k p hk => ?_, ?_, ?_, ?_⟩
  · obtain ⟨r, h1, h2, _⟩ := e2 k p hk
    exact ⟨r, h1, h2⟩
  · intro j
    rw [isDown_has w2, hd.covers]
    constructor
    · rintro ⟨hl, p, hpm, hj⟩
      obtain ⟨k, hk⟩ := List.mem_iff_getElem?.1 hpm
      obtain ⟨r, h1, _, h3⟩ := e2 k p hk
      exact ⟨r, List.mem_iff_getElem?.2 ⟨k, h1⟩, (isDown_has h3).2 ⟨hl, hj⟩⟩
    · rintro ⟨r, hr, hj⟩
      obtain ⟨k, hk⟩ := List.mem_iff_getElem?.1 hr
      obtain ⟨p, h1, h2⟩ := back k r hk
      obtain ⟨h3, h4⟩ := (isDown_has h2).1 hj
      exact ⟨h3, p, List.mem_iff_getElem?.2 ⟨k, h1⟩, h4⟩
  · rw [List.pairwise_iff_getElem]
    intro a b ha hb hab i hi
    obtain ⟨p, p1, p2⟩ := back a _ (List.getElem?_eq_getElem ha)
    obtain ⟨q, q1, q2⟩ := back b _ (List.getElem?_eq_getElem hb)
    have hpw := List.pairwise_iff_getElem.1 hd.apart a b (by omega) (by omega) hab (onFine i ds)
    rw [List.getElem?_eq_getElem (by omega)] at p1 q1
    cases p1; cases q1
    exact hpw ⟨((isDown_has p2).1 hi.1).2, ((isDown_has q2).1 hi.2).2⟩
  · intro r hr j hj
    obtain ⟨k, hk⟩ := List.mem_iff_getElem?.1 hr
    obtain ⟨p, h1, h2⟩ := back k r hk
    obtain ⟨v, v1, v2⟩ := isDown_at h2 hj
    obtain ⟨hl, hpj⟩ := (isDown_has h2).1 hj
    have hmem : p ∈ parts := List.mem_iff_getElem?.2 ⟨k, h1⟩
    obtain ⟨v', v3, v4⟩ := hd.values p hmem _ hpj
    have hwj : w.Has j := (isDown_has w2).2 ⟨hl, (hd.covers _).2 ⟨p, hmem, hpj⟩⟩
    obtain ⟨u, u1, u2⟩ := isDown_at w2 hwj
    rw [v4] at u2
    rw [v2] at v3
    cases u2; cases v3
    exact ⟨v, v1, u1⟩

/-- **C34** (adjacency).  If one piece begins where another ends along an axis, so do the downsampled pieces. -/
theorem C34_adjacent (vd : Nat) (ds : List Nat) (junk : Nat → S) (p q : Part S) (hp : p.Ok vd ds) (hq : q.Ok vd ds) (Q : List Nat) (old : List S)
    (d : Nat) (hd : d < ds.length) (h : p.start.getD d 0 + p.shape.getD d 0 = q.start.getD d 0) :
    ∃ r t, p.down vd ds junk Q old = .ok r ∧ q.down vd ds junk Q old = .ok t ∧ r.start.getD d 0 + r.shape.getD d 0 = t.start.getD d 0 := by
  obtain ⟨r, r1, r2⟩ := down_ok junk hp Q old
  obtain ⟨t, t1, t2⟩ := down_ok junk hq Q old
  refine ⟨r, t, r1, t1, ?_⟩
  have h1 := r2.last d hd
  have h2 := t2.first d hd
  have e : (mkHdr vd p.shape).shape = p.shape := rfl
  rw [e, h] at h1
  exact Nat.le_antisymm (h1.2 _ h2.1) (h2.2 _ h1.1)

/-- What goes wrong for an empty piece that ends at index 0 (excluded by `DsOk.ends`): the computed shape is not empty (the code subtracts 1 from 0). -/
theorem C34_empty_at_zero : getDownsampledShape [0] [0] [2] = .ok [2 ^ 63] := by decide +kernel

/-! ### A case -/

namespace Ex34

/-- A 3 x 5 array that starts at (1, 4). -/
def whole : Part Nat := ⟨[1, 4], [3, 5], [10, 11, 12, 13, 14, 20, 21, 22, 23, 24, 30, 31, 32, 33, 34]⟩
/-- Its left and its right part. -/
def left : Part Nat := ⟨[1, 4], [3, 1], [10, 20, 30]⟩
def right : Part Nat := ⟨[1, 5], [3, 4], [11, 12, 13, 14, 21, 22, 23, 24, 31, 32, 33, 34]⟩

example : whole.Ok 1 [2, 3] ∧ left.Ok 1 [2, 3] ∧ right.Ok 1 [2, 3] := by
  refine ⟨⟨by decide, ?_⟩, ⟨by decide, ?_⟩, ⟨by decide, ?_⟩⟩ <;> exact ⟨by decide, by decide, by decide, by decide⟩

example : (match whole.down 1 [2, 3] (fun _ => 0) [1] [7] with | .ok r => (r.start, r.shape, r.data) | _ => ([], [], [])) = ([1, 2], [1, 1], [22]) := by decide +kernel
example : (match left.down 1 [2, 3] (fun _ => 0) [1] [7] with | .ok r => (r.start, r.shape, r.data) | _ => ([], [], [])) = ([1, 2], [1, 0], []) := by decide +kernel
example : (match right.down 1 [2, 3] (fun _ => 0) [1] [7] with | .ok r => (r.start, r.shape, r.data) | _ => ([], [], [])) = ([1, 2], [1, 1], [22]) := by decide +kernel

theorem has_iff {p : Part Nat} {i : List Nat} : p.Has i ↔ i ∈ elemLoop p.start (addVec p.start p.shape) := mem_elemLoop.symm

/-- The hypotheses of `C34_pieces` hold. -/
example : Divides 1 whole [left, right] := by
  have same : ∀ p ∈ [left, right], ∀ i ∈ elemLoop p.start (addVec p.start p.shape), p.at 1 i = whole.at 1 i ∧ p.at 1 i ≠ .abort ∧ p.at 1 i ≠ .throw ∧ p.at 1 i ≠ .ub ∧
      p.at 1 i ≠ .diverge := by decide +kernel
  refine ⟨fun i => ?_, ?_, fun p hp i hi => ?_⟩
  · rw [has_iff]
    constructor
    · intro h
      have : ∀ i ∈ elemLoop whole.start (addVec whole.start whole.shape), ∃ p ∈ [left, right], i ∈ elemLoop p.start (addVec p.start p.shape) := by decide +kernel
      obtain ⟨p, h1, h2⟩ := this i h
      exact ⟨p, h1, has_iff.2 h2⟩
    · rintro ⟨p, h1, h2⟩
      have : ∀ p ∈ [left, right], ∀ i ∈ elemLoop p.start (addVec p.start p.shape), i ∈ elemLoop whole.start (addVec whole.start whole.shape) := by decide +kernel
      exact this p h1 i (has_iff.1 h2)
  · rw [List.pairwise_pair]
    rintro i ⟨h1, h2⟩
    have : ∀ i ∈ elemLoop left.start (addVec left.start left.shape), i ∉ elemLoop right.start (addVec right.start right.shape) := by decide +kernel
    exact this i (has_iff.1 h1) (has_iff.1 h2)
  · obtain ⟨h1, h2, h3, h4, h5⟩ := same p hp i (has_iff.1 hi)
    cases h : p.at 1 i with
    | ok v => exact ⟨v, rfl, by rw [← h1, h]⟩
    | abort => exact absurd h h2
    | throw => exact absurd h h3
    | ub => exact absurd h h4
    | diverge => exact absurd h h5

end Ex34

end Verif.Ops
