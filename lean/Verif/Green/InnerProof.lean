import Verif.Green.Inner
import Mathlib.Tactic.NormNum
import Verif.Dist.LibInv
/-
Proof about `accumulate_inner_product`.
-/
namespace Verif.Green
open Verif Verif.ND Verif.Dist

set_option linter.unusedSectionVars false

variable {K : Type} [Field K] [LinearOrder K] [IsStrictOrderedRing K] [FloorRing K]

/-! ### Specification of the library's contents -/

/-- The metadata of a chunk are consistent and no number overflows. -/
structure MetaOk (m : Meta) : Prop where
  startLen : m.start.length = 3
  shapeLen : m.shape.length = 3
  stop : m.stop = addVec m.start m.shape
  lt : ∀ d < 3, m.stop.getD d 0 < 2 ^ 62
  ovl : m.overlap < 2 ^ 61
  offset : m.offset = vsubS m.start m.overlap

/-- The grid point `(i, j, k)` belongs to the chunk or to its padding. -/
def InPadded (m : Meta) (i j k : Int) : Prop :=
  ((m.start.getD 0 0 : Int) - m.overlap ≤ i ∧ i < m.stop.getD 0 0 + m.overlap) ∧
  ((m.start.getD 1 0 : Int) - m.overlap ≤ j ∧ j < m.stop.getD 1 0 + m.overlap) ∧
  ((m.start.getD 2 0 : Int) - m.overlap ≤ k ∧ k < m.stop.getD 2 0 + m.overlap)

/-- The cell of the grid in which the point `(x, y, t)` lies, `x, y, t ≥ 0`. -/
def cell (x y t : K) : List Nat := [⌊x⌋.toNat, ⌊y⌋.toNat, ⌊t⌋.toNat]

/-- The library, whenever its state satisfies `I`, answers according to the chunks `ms`, which are all parts of one sampled field `A` (component, then indices):
    the element of a stored chunk is the value of `A` at its position, also in the padding, and `A` vanishes on the chunks marked as all-zero and on their padding. (The last parameter, if given, restricts
    this to the positions that satisfy `Q`.) -/
structure Serves {σ : Type} (L : Library σ K) (I : σ → Prop) (ms : List Meta) (A : Nat → Int → Int → Int → K) (Q : Int → Int → Int → Prop := fun _ _ _ => True) : Prop where
  ok : ∀ m ∈ ms, MetaOk m
  found : ∀ s p m, I s → m ∈ ms → InBox m.start m.stop p → ∃ s', L.find s p = .ok (s', some m) ∧ I s'
  missing : ∀ s p, I s → p.length = 3 → (∀ d < 3, p.getD d 0 < 2 ^ 64) → (∀ m ∈ ms, ¬ InBox m.start m.stop p) → ∃ s', L.find s p = .ok (s', none) ∧ I s'
  load : ∀ s m, I s → m ∈ ms → m.ctype = .specified → ∃ s' buf, L.load s m = .ok (s', m.shape.map (· + 2 * m.overlap), buf) ∧ I s' ∧
    buf.length = volume 2 (m.shape.map (· + 2 * m.overlap)) ∧
    ∀ c i j k, c < 2 → InPadded m i j k → Q i j k →
      component 2 (mkHdr 2 (m.shape.map (· + 2 * m.overlap))) buf c (i - m.start.getD 0 0 + m.overlap) (j - m.start.getD 1 0 + m.overlap) (k - m.start.getD 2 0 + m.overlap) = A c i j k
  null : ∀ m ∈ ms, m.ctype = .all_null → ∀ c i j k, c < 2 → InPadded m i j k → Q i j k → A c i j k = 0

/-- The points that are used for the interpolation at `(x, y, t)` all satisfy `Q`. -/
def StencilIn (kn : Kern K) (Q : Int → Int → Int → Prop) (x y t : K) : Prop :=
  ∀ a b c : Nat, a < 2 * kn.support → b < 2 * kn.support → c < 2 * kn.support → Q (⌊x⌋ - (kn.support - 1 : Int) + a) (⌊y⌋ - (kn.support - 1 : Int) + b) (⌊t⌋ - (kn.support - 1 : Int) + c)

/-- The value that sample `k` of the output should receive (before the weight): the interpolated field at the position of the sample, times the source. -/
def sampleValue (kn : Kern K) (A : Nat → Int → Int → Int → K) (source : List K) (x y t : K) : K :=
  interpAt kn (A 0) x y t * source.getD 0 0 + interpAt kn (A 1) x y t * source.getD 1 0

/-! ### Lemmas -/

theorem interpAt_congr {kn : Kern K} {G G' : Int → Int → Int → K} {x y t : K}
    (h : ∀ a b c : Nat, a < 2 * kn.support → b < 2 * kn.support → c < 2 * kn.support → kn.weight (Int.fract t) c ≠ 0 →
      G (⌊x⌋ - (kn.support - 1 : Int) + a) (⌊y⌋ - (kn.support - 1 : Int) + b) (⌊t⌋ - (kn.support - 1 : Int) + c) =
      G' (⌊x⌋ - (kn.support - 1 : Int) + a) (⌊y⌋ - (kn.support - 1 : Int) + b) (⌊t⌋ - (kn.support - 1 : Int) + c)) :
    interpAt kn G x y t = interpAt kn G' x y t := by
  unfold interpAt
  apply Finset.sum_congr rfl; intro a ha
  apply Finset.sum_congr rfl; intro b hb
  apply Finset.sum_congr rfl; intro c hc
  by_cases hw : kn.weight (Int.fract t) c = 0
  · rw [hw]; ring
  · rw [h a b c (Finset.mem_range.1 ha) (Finset.mem_range.1 hb) (Finset.mem_range.1 hc) hw]

theorem interpAt_shift (kn : Kern K) (G : Int → Int → Int → K) (x y t : K) (a b c : Int) :
    interpAt kn (fun i j k => G (i - a) (j - b) (k - c)) x y t = interpAt kn G (x - a) (y - b) (t - c) := by
  unfold interpAt
  simp only [Int.fract_sub_intCast, Int.floor_sub_intCast]
  apply Finset.sum_congr rfl; intro i _
  apply Finset.sum_congr rfl; intro j _
  apply Finset.sum_congr rfl; intro k _
  congr 1
  congr 1 <;> ring

theorem interpAt_zero {kn : Kern K} {x y t : K} : interpAt kn (fun _ _ _ => 0) x y t = 0 := by
  unfold interpAt
  simp

theorem MetaOk.stopLen {m : Meta} (h : MetaOk m) : m.stop.length = 3 := by rw [h.stop]; simp [addVec, h.startLen, h.shapeLen]

theorem MetaOk.getD_stop {m : Meta} (h : MetaOk m) (d : Nat) : m.stop.getD d 0 = m.start.getD d 0 + m.shape.getD d 0 := by
  rw [h.stop, getD_addVec (by rw [h.startLen, h.shapeLen])]

theorem MetaOk.getD_offset {m : Meta} (h : MetaOk m) {d : Nat} (hd : d < 3) : m.offset.getD d 0 = wsub (m.start.getD d 0) m.overlap := by
  rw [h.offset]
  have := h.startLen
  unfold vsubS
  rw [List.getD_eq_getElem?_getD, List.getD_eq_getElem?_getD, List.getElem?_map, List.getElem?_eq_getElem (by omega)]
  rfl

theorem MetaOk.shape3 {m : Meta} (h : MetaOk m) : m.shape.map (· + 2 * m.overlap) =
    [m.shape.getD 0 0 + 2 * m.overlap, m.shape.getD 1 0 + 2 * m.overlap, m.shape.getD 2 0 + 2 * m.overlap] := by
  obtain ⟨a, b, c, e⟩ : ∃ a b c, m.shape = [a, b, c] := by
    have := h.shapeLen
    match hs : m.shape, this with
    | [a, b, c], _ => exact ⟨a, b, c, rfl⟩
  rw [e]; rfl

theorem toLocal_ok {g : K} {start ov stop : Nat} (hs : stop < 2 ^ 62) (ho : ov < 2 ^ 61) (h1 : (start : Int) ≤ ⌊g⌋) (h2 : ⌊g⌋ ≤ (stop : Int)) :
    toLocal g (wsub start ov) = .ok (g - ((start : Int) - (ov : Int) : Int)) := by
  have hU : U64 = 2 ^ 64 := rfl
  have hg : 0 ≤ g := Int.floor_nonneg.1 (by omega)
  unfold toLocal
  rw [modf_nonneg hg]
  simp only
  rw [toSize_ok (by omega) (by omega)]
  simp only [Res.ok_bind]
  rw [wsub_wsub (by omega) (by omega) ho (by omega)]
  congr 1
  have e : ((⌊g⌋.toNat - start + ov : Nat) : K) = ((⌊g⌋ - ((start : Int) - (ov : Int)) : Int) : K) := by
    rw [← Int.cast_natCast]; congr 1; omega
  rw [e]
  have := Int.floor_add_fract g
  push_cast
  linarith

theorem inside_local {g : K} {start stop ext ov s : Nat} (hp : 0 < s) (hst : stop = start + ext) (ho : s ≤ ov) (h1 : (start : Int) ≤ ⌊g⌋) (h2 : ⌊g⌋ < (stop : Int)) :
    Inside s (ext + 2 * ov) (g - ((start : Int) - (ov : Int) : Int)) := by
  unfold Inside
  rw [Int.floor_sub_intCast]
  omega

/-- Adding the inner products of the interpolated values. -/
theorem addProducts_ok (buf : List K) (source : List K) (weight : K) (req : Nat) (hb : buf.length = req * 2) :
    ∀ (n : Nat), n ≤ req → ∀ (out : List K) (pos : Nat), pos + n ≤ out.length →
    ∃ out', runLoop (addProducts (mkHdr 2 [req]) buf source weight) (List.range n) (out, pos) = .ok (out', pos + n) ∧ out'.length = out.length ∧
      ∀ p, out'.getD p 0 = out.getD p 0 + if pos ≤ p ∧ p < pos + n then
        (buf.getD (2 * (p - pos)) 0 * source.getD 0 0 + buf.getD (2 * (p - pos) + 1) 0 * source.getD 1 0) * weight else 0 := by
  intro n
  induction n with
  | zero => intro _ out pos _; exact ⟨out, rfl, rfl, fun p => by rw [if_neg (by omega), add_zero]⟩
  | succ n ih =>
    intro hn out pos hp
    obtain ⟨o1, e1, l1, v1⟩ := ih (by omega) out pos (by omega)
    have app : ∀ (f : Nat → List K × Nat → Res (List K × Nat)) (a b : List Nat) (s : List K × Nat),
        runLoop f (a ++ b) s = (runLoop f a s).bind (runLoop f b) := by
      intro f a
      induction a with
      | nil => intro b s; rfl
      | cons x a iha =>
        intro b s
        simp only [List.cons_append, runLoop]
        cases f x s <;> simp [Res.bind, iha]
    rw [List.range_succ, app, e1]
    simp only [Res.ok_bind, runLoop]
    have hr : read1 2 (mkHdr 2 [req]) buf n = .ok ((buf.drop (2 * n)).take 2) := by
      unfold read1
      rw [if_pos (by simp [hasIndex, mkHdr]; omega), if_pos (by omega)]
    unfold addProducts
    rw [hr]
    simp only [Res.ok_bind]
    rw [if_pos (by omega)]
    simp only [Res.ok_bind]
    refine ⟨_, rfl, by simp [l1], fun p => ?_⟩
    have hin : innerProduct ((buf.drop (2 * n)).take 2) source = buf.getD (2 * n) 0 * source.getD 0 0 + buf.getD (2 * n + 1) 0 * source.getD 1 0 := by
      unfold innerProduct
      simp only [List.getD_eq_getElem?_getD]
      rw [List.getElem?_take_of_lt (by decide), List.getElem?_take_of_lt (by decide), List.getElem?_drop, List.getElem?_drop, Nat.add_zero]
    rw [hin]
    by_cases hpp : p = pos + n
    · subst hpp
      have e0 : (o1.set (pos + n) (o1.getD (pos + n) 0 + (buf.getD (2 * n) 0 * source.getD 0 0 + buf.getD (2 * n + 1) 0 * source.getD 1 0) * weight)).getD (pos + n) 0 =
          o1.getD (pos + n) 0 + (buf.getD (2 * n) 0 * source.getD 0 0 + buf.getD (2 * n + 1) 0 * source.getD 1 0) * weight := by
        rw [List.getD_eq_getElem?_getD, List.getElem?_set_self (by omega)]; rfl
      rw [e0, v1, if_neg (by omega), if_pos (by omega), add_zero]
      have : pos + n - pos = n := by omega
      rw [this]
    · have e0 : ∀ v : K, (o1.set (pos + n) v).getD p 0 = o1.getD p 0 := by
        intro v
        rw [List.getD_eq_getElem?_getD, List.getElem?_set_ne (by omega), List.getD_eq_getElem?_getD]
      rw [e0, v1]
      congr 1
      by_cases h : pos ≤ p ∧ p < pos + n
      · rw [if_pos h, if_pos (by omega)]
      · rw [if_neg h, if_neg (by omega)]

/-- The interpolation buffer: the memory beyond the vector's current end is zero. -/
structure BufOk {σ : Type} (N : Nat) (a : Acc σ K) : Prop where
  len : a.mem.length = N
  size : a.size ≤ N
  zero : ∀ k, a.size ≤ k → a.mem.getD k 0 = 0

/-- Where the samples lie in a chunk. -/
structure PartAt (kn : Kern K) (m : Meta) (x y t dt : K) (req : Nat) : Prop where
  inx : (m.start.getD 0 0 : Int) ≤ ⌊x⌋ ∧ ⌊x⌋ < (m.stop.getD 0 0 : Int)
  iny : (m.start.getD 1 0 : Int) ≤ ⌊y⌋ ∧ ⌊y⌋ < (m.stop.getD 1 0 : Int)
  int : ∀ i : Nat, i < req → (m.start.getD 2 0 : Int) ≤ ⌊t + i * dt⌋ ∧ t + i * dt ≤ ((m.stop.getD 2 0 : Nat) : K)
  edge : m.ctype = .specified → m.overlap = kn.support → (∃ i : Nat, i < req ∧ t + i * dt = ((m.stop.getD 2 0 : Nat) : K)) → ⌊x⌋ + 1 < (m.stop.getD 0 0 : Int) ∨ ⌊y⌋ + 1 < (m.stop.getD 1 0 : Int)
  ov : kn.support ≤ m.overlap

/-- The stencil of a sample lies in the padded chunk, except for a last point of weight zero. -/
theorem stencil_in {kn : Kern K} (hk : kn.Usable) {m : Meta} {x y t dt : K} {req : Nat} (h : PartAt kn m x y t dt req) {i : Nat} (hi : i < req)
    {a b c : Nat} (ha : a < 2 * kn.support) (hb : b < 2 * kn.support) (hc : c < 2 * kn.support) (hw : kn.weight (Int.fract (t + i * dt)) c ≠ 0) :
    InPadded m (⌊x⌋ - (kn.support - 1 : Int) + a) (⌊y⌋ - (kn.support - 1 : Int) + b) (⌊t + i * dt⌋ - (kn.support - 1 : Int) + c) := by
  have h1 := h.inx
  have h2 := h.iny
  obtain ⟨h3, h4⟩ := h.int i hi
  have h5 := h.ov
  have hp := hk.support
  refine ⟨by omega, by omega, by omega, ?_⟩
  set u := t + i * dt
  by_cases hlt : ⌊u⌋ < (m.stop.getD 2 0 : Int)
  · omega
  · have e : (((m.stop.getD 2 0 : Nat) : Int) : K) ≤ u := Int.le_floor.1 (by omega)
    have e' : u = (((m.stop.getD 2 0 : Nat) : Int) : K) := by
      apply le_antisymm _ e
      simpa using h4
    have f0 : Int.fract u = 0 := by rw [e', Int.fract_intCast]
    have f1 : ⌊u⌋ = (m.stop.getD 2 0 : Int) := by rw [e', Int.floor_intCast]
    have : c ≠ 2 * kn.support - 1 := by
      intro ec; rw [f0, ec] at hw; exact hw hk.last
    omega

theorem sampleValue_null {kn : Kern K} (hk : kn.Usable) {m : Meta} {x y t dt : K} {req : Nat} (h : PartAt kn m x y t dt req) {i : Nat} (hi : i < req)
    {A : Nat → Int → Int → Int → K} {Q : Int → Int → Int → Prop} (hz : ∀ c i j k, c < 2 → InPadded m i j k → Q i j k → A c i j k = 0) (hQ : StencilIn kn Q x y (t + i * dt)) (source : List K) :
    sampleValue kn A source x y (t + i * dt) = 0 := by
  have : ∀ c, c < 2 → interpAt kn (A c) x y (t + i * dt) = 0 := by
    intro c hc
    rw [← interpAt_zero (kn := kn) (x := x) (y := y) (t := t + i * dt)]
    apply interpAt_congr
    intro a b e ha hb he hw
    exact hz c _ _ _ hc (stencil_in hk h hi ha hb he hw) (hQ a b e ha hb he)
  unfold sampleValue
  rw [this 0 (by decide), this 1 (by decide)]
  ring

section
variable {σ : Type} {L : Library σ K} {I : σ → Prop} {ms : List Meta} {A : Nat → Int → Int → Int → K} {kn : Kern K} {Q : Int → Int → Int → Prop}

/-- The calculations for one stored chunk. -/
theorem chunkPart_ok (hL : Serves L I ms A Q) (hk : kn.Usable) {grow : K → K} (hg : grow 0 = 0) {m : Meta} (hm : m ∈ ms) (hsp : m.ctype = .specified)
    {x y t dt : K} {req : Nat} (hreq : 0 < req) (hat : PartAt kn m x y t dt req) (hQ : ∀ i : Nat, i < req → StencilIn kn Q x y (t + i * dt)) (source : List K) (weight : K) {N : Nat} {a : Acc σ K} (ha : I a.lib) (hb : BufOk N a)
    (hN : req * 2 ≤ N) (hpos : a.pos + req ≤ a.out.length) :
    ∃ b, chunkPart L kn grow m x y t dt req source weight a = .ok b ∧ I b.lib ∧ BufOk N b ∧ b.cur = a.cur ∧ b.pos = a.pos + req ∧ b.out.length = a.out.length ∧
      ∀ p, b.out.getD p 0 = a.out.getD p 0 + if a.pos ≤ p ∧ p < a.pos + req then sampleValue kn A source x y (t + ((p - a.pos : Nat) : K) * dt) * weight else 0 := by
  have hM := hL.ok m hm
  obtain ⟨s', buf, l1, l2, l3, l4⟩ := hL.load a.lib m ha hm hsp
  have hp := hk.support
  have hU : U64 = 2 ^ 64 := rfl
  unfold chunkPart
  rw [hsp]
  simp only
  rw [l1]
  simp only [Res.ok_bind]
  have st0 := hM.getD_stop 0
  have st1 := hM.getD_stop 1
  have st2 := hM.getD_stop 2
  have lt0 := hM.lt 0 (by decide)
  have lt1 := hM.lt 1 (by decide)
  have lt2 := hM.lt 2 (by decide)
  have hx := hat.inx
  have hy := hat.iny
  have ht0 := hat.int 0 hreq
  simp only [Nat.cast_zero, zero_mul, add_zero] at ht0
  have hov := hat.ov
  have hovl := hM.ovl
  have floorle : ∀ u : K, u ≤ ((m.stop.getD 2 0 : Nat) : K) → ⌊u⌋ ≤ (m.stop.getD 2 0 : Int) := by
    intro u hu
    have := Int.floor_le_floor hu
    simpa using this
  have ht0' := floorle _ ht0.2
  rw [hM.getD_offset (d := 0) (by decide), hM.getD_offset (d := 1) (by decide), hM.getD_offset (d := 2) (by decide)]
  rw [toLocal_ok lt0 hovl hx.1 (by omega), toLocal_ok lt1 hovl hy.1 (by omega), toLocal_ok lt2 hovl ht0.1 ht0']
  simp only [Res.ok_bind]
  set ox : Int := (m.start.getD 0 0 : Int) - (m.overlap : Int) with hox
  set oy : Int := (m.start.getD 1 0 : Int) - (m.overlap : Int) with hoy
  set ot : Int := (m.start.getD 2 0 : Int) - (m.overlap : Int) with hot
  have hsh := hM.shape3
  have ix := inside_local (g := x) hp st0 hov hx.1 hx.2
  have iy := inside_local (g := y) hp st1 hov hy.1 hy.2
  have it : ∀ i : Nat, i < req → Inside kn.support (m.shape.getD 2 0 + 2 * m.overlap) (t - (ot : K) + i * dt) ∨
      AtEnd kn.support (m.shape.getD 0 0 + 2 * m.overlap) (m.shape.getD 1 0 + 2 * m.overlap) (m.shape.getD 2 0 + 2 * m.overlap) (x - (ox : K)) (y - (oy : K)) (t - (ot : K) + i * dt) := by
    intro i hi
    obtain ⟨q1, q2⟩ := hat.int i hi
    have e : t - (ot : K) + i * dt = (t + i * dt) - (ot : K) := by ring
    rw [e]
    have q3 := floorle _ q2
    by_cases hlt : ⌊t + i * dt⌋ < (m.stop.getD 2 0 : Int)
    · left; exact inside_local hp st2 hov q1 hlt
    · have e1 : (((m.stop.getD 2 0 : Nat) : Int) : K) ≤ t + i * dt := Int.le_floor.1 (by omega)
      have e' : t + i * dt = (((m.stop.getD 2 0 : Nat) : Int) : K) := by
        apply le_antisymm _ e1
        simpa using q2
      have f0 : Int.fract (t + i * dt) = 0 := by rw [e', Int.fract_intCast]
      have f1 : ⌊t + i * dt⌋ = (m.stop.getD 2 0 : Int) := by rw [e', Int.floor_intCast]
      by_cases ho : m.overlap = kn.support
      · right
        have := hat.edge hsp ho ⟨i, hi, by rw [e']; simp⟩
        unfold AtEnd
        rw [Int.floor_sub_intCast, Int.fract_sub_intCast, Int.floor_sub_intCast, Int.floor_sub_intCast]
        refine ⟨by omega, f0, by omega, ?_⟩
        rcases this with h | h
        · left; omega
        · right; omega
      · left
        unfold Inside
        rw [Int.floor_sub_intCast]
        omega
  rw [hsh] at l3 l4 ⊢
  obtain ⟨d, e1, e2, e3⟩ := interpolate_ok hk (vd := 2) (by decide) l3 (by omega) (by omega) (by omega) (hr := mkHdr 2 [a.size / 2]) rfl
    (List.replicate a.size (0 : K)) (x - (ox : K)) (y - (oy : K)) (t - (ot : K)) dt req (fun k => grow (a.mem.getD k 0)) ix iy it
  rw [e1]
  simp only [Res.ok_bind]
  obtain ⟨o, f1, f2, f3⟩ := addProducts_ok d source weight req e2 req (Nat.le_refl _) a.out a.pos hpos
  rw [f1]
  simp only [Res.ok_bind]
  refine ⟨_, rfl, l2, ⟨?_, ?_, ?_⟩, rfl, rfl, f2, fun p => ?_⟩
  · have := hb.len
    have := hb.size
    simp only [List.length_append, List.length_drop, List.length_replicate]; omega
  · simp only; omega
  · intro k hkk
    simp only at hkk ⊢
    rw [List.getD_eq_getElem?_getD, List.getElem?_append_right hkk, List.getElem?_drop]
    have : d.length + (k - d.length) = k := by omega
    rw [this]
    by_cases hks : k < a.size
    · rw [List.getElem?_append_left (by simpa using hks), List.getElem?_replicate, if_pos hks]; rfl
    · rw [List.getElem?_append_right (by simp; omega), List.getElem?_drop, List.length_replicate]
      have : a.size + (k - a.size) = k := by omega
      rw [this, ← List.getD_eq_getElem?_getD]
      exact hb.zero k (by omega)
  · simp only
    rw [f3 p]
    congr 1
    by_cases hpp : a.pos ≤ p ∧ p < a.pos + req
    · rw [if_pos hpp, if_pos hpp]
      congr 1
      have hreq' : p - a.pos < req := by omega
      have hz : ∀ q, (List.replicate a.size (0 : K)).getD q (grow (a.mem.getD q 0)) = 0 := by
        intro q
        by_cases hq : q < a.size
        · rw [List.getD_eq_getElem?_getD, List.getElem?_replicate, if_pos hq]; rfl
        · rw [List.getD_eq_getElem?_getD, List.getElem?_replicate, if_neg hq, hb.zero q (by omega), hg]; rfl
      have val : ∀ c, c < 2 → d.getD (2 * (p - a.pos) + c) 0 = interpAt kn (A c) x y (t + ((p - a.pos : Nat) : K) * dt) := by
        intro c hc
        rw [e3 _ c hreq' hc, hz, zero_add]
        have e : t - (ot : K) + ((p - a.pos : Nat) : K) * dt = (t + ((p - a.pos : Nat) : K) * dt) - (ot : K) := by ring
        rw [e, ← interpAt_shift]
        apply interpAt_congr
        intro u v w hu hv hw hne
        have := l4 c _ _ _ hc (stencil_in hk hat hreq' hu hv hw hne) (hQ _ hreq' u v w hu hv hw)
        rw [← this]
        congr 1 <;> omega
      have v0 := val 0 (by decide)
      rw [Nat.add_zero] at v0
      unfold sampleValue
      rw [v0, val 1 (by decide)]
    · rw [if_neg hpp, if_neg hpp]

/-- A request for samples at the positions `(x, y, ts + k * dt)`, `k < n` (in units of the grid) that the function can handle. -/
structure Request (kn : Kern K) (ms : List Meta) (x y ts dt : K) (n : Nat) : Prop where
  x0 : 0 ≤ x
  y0 : 0 ≤ y
  t0 : 0 ≤ ts
  step : 0 < dt
  x1 : x < 2 ^ 62
  y1 : y < 2 ^ 62
  t1 : ∀ k : Nat, k < n → ts + k * dt < 2 ^ 62
  /-- the numbers of samples fit -/
  many : n < 2 ^ 62
  fits : ∀ m ∈ ms, ((m.stop.getD 2 0 : Nat) : K) / dt < 2 ^ 62
  /-- the chunks have enough padding for the kernel -/
  padded : ∀ m ∈ ms, kn.support ≤ m.overlap
  /-- if the padding is just enough, no sample lies exactly on the end of a chunk while the position is in the last cell of the chunk along both other axes -/
  edge : ∀ m ∈ ms, m.ctype = .specified → m.overlap = kn.support → ∀ k : Nat, k < n → ts + k * dt = ((m.stop.getD 2 0 : Nat) : K) →
    ¬ (⌊x⌋ + 1 = (m.stop.getD 0 0 : Int) ∧ ⌊y⌋ + 1 = (m.stop.getD 1 0 : Int))

/-- No sample in a stored chunk comes after a sample in an all-zero chunk. -/
def ZerosLast (ms : List Meta) (x y ts dt : K) (n : Nat) : Prop :=
  ∀ (j k : Nat) (m m' : Meta), j < k → k < n → m ∈ ms → m' ∈ ms → InBox m.start m.stop (cell x y (ts + j * dt)) → InBox m'.start m'.stop (cell x y (ts + k * dt)) →
    m.ctype = .all_null → m'.ctype = .all_null

theorem inBox3 {m : Meta} (hM : MetaOk m) {x y t : K} (hx : 0 ≤ x) (hy : 0 ≤ y) (ht : 0 ≤ t) (h : InBox m.start m.stop (cell x y t)) :
    ((m.start.getD 0 0 : Int) ≤ ⌊x⌋ ∧ ⌊x⌋ < (m.stop.getD 0 0 : Int)) ∧ ((m.start.getD 1 0 : Int) ≤ ⌊y⌋ ∧ ⌊y⌋ < (m.stop.getD 1 0 : Int)) ∧
    ((m.start.getD 2 0 : Int) ≤ ⌊t⌋ ∧ ⌊t⌋ < (m.stop.getD 2 0 : Int)) := by
  have h0 := h.2.2 0 (by simp [cell])
  have h1 := h.2.2 1 (by simp [cell])
  have h2 := h.2.2 2 (by simp [cell])
  have q0 := Int.floor_nonneg.2 hx
  have q1 := Int.floor_nonneg.2 hy
  have q2 := Int.floor_nonneg.2 ht
  simp only [cell, List.getD_cons_zero, List.getD_cons_succ] at h0 h1 h2
  omega

theorem floor_lt62 {x : K} (h : x < 2 ^ 62) : ⌊x⌋ < 2 ^ 62 := by
  rw [Int.floor_lt]; norm_num at h ⊢; exact h

/-- The point lies in the domain covered by the chunks, or at the very end of a chunk in time. -/
def OnChunk (ms : List Meta) (x y t : K) : Prop :=
  (∃ m ∈ ms, InBox m.start m.stop (cell x y t)) ∨ ∃ m ∈ ms, t = ((m.stop.getD 2 0 : Nat) : K) ∧ ((m.start.getD 0 0 : Int) ≤ ⌊x⌋ ∧ ⌊x⌋ < (m.stop.getD 0 0 : Int)) ∧
    ((m.start.getD 1 0 : Int) ≤ ⌊y⌋ ∧ ⌊y⌋ < (m.stop.getD 1 0 : Int))

theorem cell_inBox {m : Meta} (hM : MetaOk m) {x y t : K} (hx : (m.start.getD 0 0 : Int) ≤ ⌊x⌋ ∧ ⌊x⌋ < (m.stop.getD 0 0 : Int))
    (hy : (m.start.getD 1 0 : Int) ≤ ⌊y⌋ ∧ ⌊y⌋ < (m.stop.getD 1 0 : Int)) (ht : (m.start.getD 2 0 : Int) ≤ ⌊t⌋ ∧ ⌊t⌋ < (m.stop.getD 2 0 : Int)) :
    InBox m.start m.stop (cell x y t) := by
  refine ⟨hM.startLen.symm, ?_, fun d hd => ?_⟩
  · rw [hM.stop]; unfold addVec; rw [List.length_zipWith, hM.startLen, hM.shapeLen]; rfl
  · have hd : d < 3 := hd
    match d, hd with
    | 0, _ => show _ ≤ ⌊x⌋.toNat ∧ ⌊x⌋.toNat < _; omega
    | 1, _ => show _ ≤ ⌊y⌋.toNat ∧ ⌊y⌋.toNat < _; omega
    | 2, _ => show _ ≤ ⌊t⌋.toNat ∧ ⌊t⌋.toNat < _; omega

/-- The loop of `accumulate_inner_product`. -/
theorem accLoop_ok (hL : Serves L I ms A Q) (hk : kn.Usable) {grow : K → K} (hg : grow 0 = 0) {oob : OOB} {x y ts dt : K} {n : Nat} (hR : Request kn ms x y ts dt n)
    (hZ : ZerosLast ms x y ts dt n) (hQ : ∀ k : Nat, k < n → StencilIn kn Q x y (ts + k * dt)) (source : List K) (weight : K) {P : Nat}
    (hcov : oob = .raise → ∀ k : Nat, k < n → ∃ m ∈ ms, InBox m.start m.stop (cell x y (ts + k * dt))) :
    ∀ (fuel : Nat) (a : Acc σ K), n < fuel + a.cur → a.cur ≤ n → I a.lib → BufOk (n * 2) a → P + n ≤ a.out.length →
      (a.pos = P + a.cur ∨ ∃ (j : Nat) (m : Meta), j < a.cur ∧ m ∈ ms ∧ m.ctype = .all_null ∧ InBox m.start m.stop (cell x y (ts + j * dt))) →
      ∃ b e, accLoop L kn grow oob x y ts dt n source weight fuel a = .ok b ∧ I b.lib ∧ a.cur ≤ e ∧ e ≤ n ∧
        (e < n → ∀ m ∈ ms, ¬ InBox m.start m.stop (cell x y (ts + e * dt))) ∧ b.out.length = a.out.length ∧
        (∀ p, b.out.getD p 0 = a.out.getD p 0 + if P + a.cur ≤ p ∧ p < P + e then sampleValue kn A source x y (ts + ((p - P : Nat) : K) * dt) * weight else 0) ∧
        ∀ k, a.cur ≤ k → k < e → OnChunk ms x y (ts + (k : K) * dt) := by
  intro fuel
  have hU : U64 = 2 ^ 64 := rfl
  induction fuel with
  | zero => intro a h1 h2; omega
  | succ f ih =>
    intro a hf hc ha hb hout hal
    unfold accLoop
    by_cases hlt : a.cur < n
    · rw [if_pos hlt]
      simp only
      set t := ts + (a.cur : K) * dt with ht
      have ht0 : 0 ≤ t := by
        have := hR.t0
        have : (0 : K) ≤ (a.cur : K) * dt := mul_nonneg (Nat.cast_nonneg _) hR.step.le
        linarith
      have fx := floor_lt62 hR.x1
      have fy := floor_lt62 hR.y1
      have ft := floor_lt62 (hR.t1 a.cur hlt)
      rw [← ht] at ft
      have nx := Int.floor_nonneg.2 hR.x0
      have ny := Int.floor_nonneg.2 hR.y0
      have nt := Int.floor_nonneg.2 ht0
      rw [modf_nonneg hR.x0, modf_nonneg hR.y0, modf_nonneg ht0]
      simp only
      rw [toSize_ok nx (by omega), toSize_ok ny (by omega), toSize_ok nt (by omega)]
      simp only [Res.ok_bind]
      change ∃ b e, (L.find a.lib (cell x y t)).bind _ = _ ∧ _
      by_cases hex : ∃ m ∈ ms, InBox m.start m.stop (cell x y t)
      · obtain ⟨m, hm, hin⟩ := hex
        obtain ⟨s', g1, g2⟩ := hL.found a.lib _ m ha hm hin
        rw [g1]
        simp only [Res.ok_bind]
        have hM := hL.ok m hm
        obtain ⟨bx, by', bt⟩ := inBox3 hM hR.x0 hR.y0 ht0 hin
        have hpad := hR.padded m hm
        have hstep := hR.step
        rw [show decide (kn.support ≤ m.overlap) = true from decide_eq_true hpad]
        simp only [Res.assert_true, Res.ok_bind]
        have hts : t < ((m.stop.getD 2 0 : Nat) : K) := by
          have := Int.floor_lt.1 bt.2
          simpa using this
        set q := (((m.stop.getD 2 0 : Nat) : K) - t) / dt with hq
        have hq0 : 0 ≤ q := div_nonneg (by linarith) hstep.le
        have hq1 : q < 2 ^ 62 := by
          refine lt_of_le_of_lt ?_ (hR.fits m hm)
          exact (div_le_div_iff_of_pos_right hstep).2 (by linarith)
        have fq := floor_lt62 hq1
        have nq := Int.floor_nonneg.2 hq0
        rw [modf_nonneg hq0]
        simp only
        rw [toSize_ok nq (by omega)]
        simp only [Res.ok_bind]
        rw [wadd_eq (by omega)]
        set req := min (⌊q⌋.toNat + 1) (n - a.cur) with hreq
        have hr0 : 0 < req := by omega
        have hstop : ∀ i : Nat, i < req → t + i * dt ≤ ((m.stop.getD 2 0 : Nat) : K) := by
          intro i hi
          have h1 : (i : K) ≤ q := by
            have : ((i : Int) : K) ≤ q := Int.le_floor.1 (by omega)
            simpa using this
          have h2 : (i : K) * dt ≤ q * dt := mul_le_mul_of_nonneg_right h1 hstep.le
          have h3 : q * dt = ((m.stop.getD 2 0 : Nat) : K) - t := div_mul_cancel₀ _ hstep.ne'
          linarith
        have hbig := hR.many
        rw [wsub_eq (by omega) (by omega)]
        rw [show decide (t + ((req - 1 : Nat) : K) * dt ≤ ((m.stop.getD 2 0 : Nat) : K)) = true from decide_eq_true (hstop (req - 1) (by omega))]
        simp only [Res.assert_true, Res.ok_bind]
        have hidx : ∀ i : Nat, t + (i : K) * dt = ts + ((a.cur + i : Nat) : K) * dt := by
          intro i; rw [ht]; push_cast; ring
        have hat : PartAt kn m x y t dt req := by
          refine ⟨bx, by', fun i hi => ⟨?_, hstop i hi⟩, ?_, hpad⟩
          · have : ⌊t⌋ ≤ ⌊t + i * dt⌋ := Int.floor_le_floor (by
              have : (0 : K) ≤ (i : K) * dt := mul_nonneg (Nat.cast_nonneg _) hstep.le
              linarith)
            omega
          · intro hsp ho ⟨i, hi, he⟩
            have := hR.edge m hm hsp ho (a.cur + i) (by omega) (by rw [← hidx]; exact he)
            omega
        have hon : ∀ i : Nat, i < req → OnChunk ms x y (t + (i : K) * dt) := by
          intro i hi
          have h1 := (hat.int i hi).1
          have h2 := hstop i hi
          by_cases h3 : ⌊t + i * dt⌋ < (m.stop.getD 2 0 : Int)
          · exact Or.inl ⟨m, hm, cell_inBox hM bx by' ⟨h1, h3⟩⟩
          · refine Or.inr ⟨m, hm, le_antisymm h2 ?_, bx, by'⟩
            have : (((m.stop.getD 2 0 : Nat) : Int) : K) ≤ t + i * dt := Int.le_floor.1 (by omega)
            simpa using this
        have hon' : ∀ k : Nat, a.cur ≤ k → k < a.cur + req → OnChunk ms x y (ts + (k : K) * dt) := by
          intro k h1 h2
          have := hon (k - a.cur) (by omega)
          rw [hidx, show a.cur + (k - a.cur) = k by omega] at this
          exact this
        cases hsp : m.ctype with
        | all_null =>
          have e1 : chunkPart L kn grow m x y t dt req source weight { a with lib := s' } = .ok { a with lib := s' } := by
            unfold chunkPart; rw [hsp]
          rw [e1]
          simp only [Res.ok_bind]
          obtain ⟨b, e, r1, r2, r3, r4, r5, r6, r7, r8⟩ := ih { a with lib := s', cur := a.cur + req } (by simp only; omega) (by simp only; omega) g2
            ⟨hb.len, hb.size, hb.zero⟩ hout (Or.inr ⟨a.cur, m, by simp only; omega, hm, hsp, hin⟩)
          simp only at r3 r7 r8
          refine ⟨b, e, r1, r2, by omega, r4, r5, r6, fun p => ?_, fun k k1 k2 => if h : k < a.cur + req then hon' k k1 h else r8 k (by omega) k2⟩
          rw [r7 p]
          congr 1
          by_cases h1 : P + (a.cur + req) ≤ p ∧ p < P + e
          · rw [if_pos h1, if_pos (by omega)]
          · rw [if_neg h1]
            by_cases h2 : P + a.cur ≤ p ∧ p < P + e
            · rw [if_pos h2]
              have hz := sampleValue_null hk hat (i := p - P - a.cur) (by omega) (hL.null m hm hsp) (by rw [hidx]; exact hQ _ (by omega)) source
              rw [hidx] at hz
              have : a.cur + (p - P - a.cur) = p - P := by omega
              rw [this] at hz
              rw [hz, zero_mul]
            · rw [if_neg h2]
        | specified =>
          have hpos : a.pos = P + a.cur := by
            rcases hal with h | ⟨j, m', h1, h2, h3, h4⟩
            · exact h
            · have := hZ j a.cur m' m h1 hlt h2 hm h4 hin h3
              rw [hsp] at this; cases this
          obtain ⟨b, c1, c2, c3, c4, c5, c6, c7⟩ := chunkPart_ok hL hk hg hm hsp hr0 hat (fun i hi => by rw [hidx]; exact hQ _ (by omega)) source weight (a := { a with lib := s' }) g2 ⟨hb.len, hb.size, hb.zero⟩
            (N := n * 2) (by omega) (by simp only; omega)
          simp only at c4 c5 c6 c7
          rw [c1]
          simp only [Res.ok_bind]
          obtain ⟨b', e, r1, r2, r3, r4, r5, r6, r7, r8⟩ := ih { b with cur := b.cur + req } (by simp only; omega) (by simp only; omega) c2
            ⟨c3.len, c3.size, c3.zero⟩ (by simp only; omega) (Or.inl (by simp only; omega))
          simp only at r3 r6 r7 r8
          refine ⟨b', e, r1, r2, by omega, r4, r5, by omega, fun p => ?_, fun k k1 k2 => if h : k < a.cur + req then hon' k k1 h else r8 k (by omega) k2⟩
          rw [r7 p, c7 p, c4, hpos]
          by_cases h1 : P + a.cur ≤ p ∧ p < P + a.cur + req
          · rw [if_pos h1, if_neg (by omega), if_pos (by omega), add_zero]
            congr 2
            rw [hidx]
            have : a.cur + (p - (P + a.cur)) = p - P := by omega
            rw [this]
          · rw [if_neg h1, add_zero]
            congr 1
            by_cases h2 : P + (a.cur + req) ≤ p ∧ p < P + e
            · rw [if_pos h2, if_pos (by omega)]
            · rw [if_neg h2, if_neg (by omega)]
      · have hno : ∀ m ∈ ms, ¬ InBox m.start m.stop (cell x y t) := fun m hm hi => hex ⟨m, hm, hi⟩
        obtain ⟨s', g1, g2⟩ := hL.missing a.lib (cell x y t) ha rfl (by
          intro d hd
          match d, hd with
          | 0, _ => show ⌊x⌋.toNat < _; omega
          | 1, _ => show ⌊y⌋.toNat < _; omega
          | 2, _ => show ⌊t⌋.toNat < _; omega) hno
        rw [g1]
        simp only [Res.ok_bind]
        cases oob with
        | raise =>
          obtain ⟨m, hm, hin⟩ := hcov rfl a.cur hlt
          exact absurd hin (hno m hm)
        | ignore =>
          rw [if_pos rfl]
          refine ⟨_, a.cur, rfl, g2, Nat.le_refl _, hc, fun _ => hno, rfl, fun p => ?_, fun k k1 k2 => by omega⟩
          rw [if_neg (by omega), add_zero]
    · rw [if_neg hlt]
      refine ⟨a, a.cur, rfl, ha, Nat.le_refl _, hc, fun h => absurd h hlt, rfl, fun p => ?_, fun k k1 k2 => by omega⟩
      rw [if_neg (by omega), add_zero]

end

end Verif.Green
