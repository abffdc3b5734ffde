import Verif.Analytic.CalcProof
import Verif.Analytic.Props65
import Verif.Rebuild.Props32
import Mathlib.Analysis.SpecialFunctions.Pow.Real
/-
C63: the Green's function of an electric dipole that is calculated and stored has the analytic field at its grid points, also in the overlap of its chunks.
-/
set_option linter.unusedSectionVars false
namespace Verif.Analytic
open Verif Verif.ND Verif.Dist Verif.Tree Verif.Bytes Verif.Ops Verif.Rebuild Verif.Green

variable {K : Type} [Field K] [LinearOrder K] [IsStrictOrderedRing K] [FloorSemiring K]

/-! ### Specification -/

/-- The requested steps are `hs` (space) and `ht` (time); each axis is at least one requested step long and at most 2^30 requested steps; the number of grid points is less than 2^63. -/
structure DipoleOk (F : Fns K) (pow2 : K → K) (P : Params K) (hs ht : K) : Prop where
  req : reqStep F pow2 P = .ok (hs, ht)
  pos : 0 < hs ∧ 0 < ht
  r : hs ≤ P.r1 - P.r0 ∧ P.r1 - P.r0 < 2 ^ 30 * hs
  z : hs ≤ P.z1 - P.z0 ∧ P.z1 - P.z0 < 2 ^ 30 * hs
  t : ht ≤ P.tEnd ∧ P.tEnd < 2 ^ 30 * ht
  vol : ((P.r1 - P.r0) / hs + 1) * (((P.z1 - P.z0) / hs + 1) * (P.tEnd / ht + 1)) < 2 ^ 63
  pts : 0 < P.maxPts ∧ P.maxPts + 4 < 2 ^ 16

/-- An axis from `lo` to `hi` is divided into `n` steps of length `s`; `n` is the number of requested steps `req` that fit. -/
structure Divides (lo hi req : K) (n : Nat) (s : K) : Prop where
  pos : 0 < n
  lt : n < 2 ^ 30
  ends : lo + s * n = hi
  fits : (n : K) * req ≤ hi - lo
  most : hi - lo < ((n : K) + 1) * req

/-- The chunk with description `m` and contents `a` belongs to a grid of `nr + 1`, `nz + 1`, `nt + 1` points with steps `sr`, `sz`, `st`: it has two more layers on each side, and it has the field of the
    dipole at each of its points that belongs to the grid, and also at those with a negative index in radial direction of which the mirror image belongs to the grid; behind the ends of the grid it has zeros. -/
structure HasField (F : Fns K) (P : Params K) (enc : Option K → Nat) (nr nz nt : Nat) (sr sz st : K) (m : Meta) (a : Arr) : Prop where
  specified : m.ctype = .specified
  overlap : m.overlap = 2
  inside : ∀ d < 3, m.start.getD d 0 < m.stop.getD d 0 ∧ m.stop.getD d 0 ≤ [nr + 1, nz + 1, nt + 1].getD d 0 ∧ m.stop.getD d 0 - m.start.getD d 0 ≤ P.maxPts
  shape : a.shape = [m.stop.getD 0 0 - m.start.getD 0 0 + 4, m.stop.getD 1 0 - m.start.getD 1 0 + 4, m.stop.getD 2 0 - m.start.getD 2 0 + 4]
  values : ∀ x y w : Nat, x < m.stop.getD 0 0 - m.start.getD 0 0 + 4 → y < m.stop.getD 1 0 - m.start.getD 1 0 + 4 → w < m.stop.getD 2 0 - m.start.getD 2 0 + 4 →
    ∃ v, a.get 2 [x, y, w] = .ok v ∧ v.length = 2 ∧ ∀ jr jz jt : Int, jr = (m.start.getD 0 0 : Int) - 2 + x → jz = (m.start.getD 1 0 : Int) - 2 + y → jt = (m.start.getD 2 0 : Int) - 2 + w →
      (|jr| ≤ nr → 0 ≤ jz → jz ≤ nz → 0 ≤ jt → jt ≤ nt → VEq ((fieldAt F P.dip (P.r0 + sr * ((|jr| : Int) : K)) (P.z0 + sz * (jz : K)) (st * (jt : K))).map enc) v) ∧
      (0 ≤ jr → (nr : Int) < jr ∨ jz < 0 ∨ (nz : Int) < jz ∨ jt < 0 ∨ (nt : Int) < jt → VEq [0, 0] v)

/-- Chunks are looked up at the indices `is`, one after the other (as the interpolation does it): `m_index.GetChunk` and `m_cache.RetrieveChunk`. -/
def lookups (C : Cfg) : List (List Nat) → Lib → FS → Res (List (Meta × Arr))
  | [], _, _ => .ok []
  | i :: is, g, fs => (chunkAt C g fs i).bind fun q => (lookups C is q.1 q.2.1).bind fun r => .ok (q.2.2 :: r)

/-! ### Proof -/

theorem divides_of {lo hi req : K} (hr : 0 < req) (h1 : req ≤ hi - lo) (h2 : hi - lo < 2 ^ 30 * req) : ∃ (n : Nat) (s : K), axisOf lo hi req = .ok (n, s) ∧ Divides lo hi req n s := by
  obtain ⟨n, a1, a2, a3, a4, a5⟩ := axisOf_ok hr h1 h2
  refine ⟨n, _, a1, a2, a3, ?_, a4, a5⟩
  have hn : (n : K) ≠ 0 := Nat.cast_ne_zero.2 a2.ne'
  field_simp
  ring

theorem box3 {lo hi i : List Nat} (h1 : lo.length = 3) (h2 : hi.length = 3) : InBox lo hi i ↔ ∃ x y w, i = [x, y, w] ∧ (lo.getD 0 0 ≤ x ∧ x < hi.getD 0 0) ∧ (lo.getD 1 0 ≤ y ∧ y < hi.getD 1 0) ∧
    (lo.getD 2 0 ≤ w ∧ w < hi.getD 2 0) := by
  constructor
  · rintro ⟨b1, b2, b3⟩
    match i, b1, b2, b3 with
    | [x, y, w], b1, b2, b3 => exact ⟨x, y, w, rfl, b3 0 (by omega), b3 1 (by omega), b3 2 (by omega)⟩
    | [], b1, _, _ => simp at b1; omega
    | [_], b1, _, _ => simp at b1; omega
    | [_, _], b1, _, _ => simp at b1; omega
    | _ :: _ :: _ :: _ :: _, b1, _, _ => simp at b1; omega
  · rintro ⟨x, y, w, rfl, c1, c2, c3⟩
    refine ⟨by simp [h1], by simp [h2], fun d hd => ?_⟩
    match d, hd with
    | 0, _ => exact c1
    | 1, _ => exact c2
    | 2, _ => exact c3
    | d + 3, hd => simp at hd

theorem chunkAt_keep {C : Cfg} {S : Sorter} {Z : SlabSize} (hC : C.Ok) {lib : Lib} {fs : FS} {cs : List (Meta × Arr)} (h : LInv C S Z lib fs cs) (hcl : lib.cc.Clean) {c : Meta × Arr} (hc : c ∈ cs)
    {i : List Nat} (hi : InBox c.1.start c.1.stop i) :
    ∃ lib' fs' a, chunkAt C lib fs i = .ok (lib', fs', c.1, a) ∧ AEq C.vd c.2 a ∧ LInv C S Z lib' fs' cs ∧ lib'.cc.Clean := by
  obtain ⟨k, hk⟩ := List.getElem?_of_mem hc
  have hpl := h.chunky.placed c hc
  have ho := h.chunky.onlyAt hk hi
  obtain ⟨t, e1, e2⟩ := h.idx.getChunk_ok hC (hpl.point hi) (i := k) (m := c.1) (by rw [List.getElem?_map, hk]; rfl) ho
  obtain ⟨s, hs⟩ := h.cache
  obtain ⟨cc', fs', s', b, f1, f2, f3, f4, f5, f6⟩ := retrieve_ok hC h.chunky.ok hs (m := c.1) (a := c.2) (h.lookup hc)
  refine ⟨⟨cc', { lib.idx with tree := t, valid := false }⟩, fs', b, ?_, f5, ⟨h.chunky, e2, f2.trans h.dir, ⟨s', f3⟩, metaValid_false rfl⟩, (retrieve_clean hcl f1).clean⟩
  unfold chunkAt
  rw [e1]
  simp only [Res.ok_bind]
  rw [f1]
  rfl

/-- What is known of the chunks, in terms of coordinates. -/
theorem hasField {hst : Host} {junk : Nat → Nat} {F : Fns K} {P : Params K} {enc : Option K → Nat} {nr nz nt : Nat} {sr sz st : K} {gm : GFMeta} {dir : Nat} {d : Disk} {cs : List (Meta × Arr)}
    {ps : List Piece} (h : Result hst junk (sample F P.dip enc [P.r0, P.z0, 0] [sr, sz, st]) [nr + 1, nz + 1, nt + 1] P.maxPts gm dir d cs ps) {c : Meta × Arr} (hc : c ∈ cs) {a : Arr}
    (ha : AEq 2 c.2 a) : HasField F P enc nr nz nt sr sz st c.1 a := by
  obtain ⟨c1, ⟨c2, c3, c4⟩, c5, c6, c7⟩ := h.chunk c hc
  simp only [List.length_replicate] at c2 c3 c4
  have hin : ∀ d < 3, c.1.start.getD d 0 < c.1.stop.getD d 0 ∧ c.1.stop.getD d 0 ≤ [nr + 1, nz + 1, nt + 1].getD d 0 ∧ c.1.stop.getD d 0 - c.1.start.getD d 0 ≤ P.maxPts := fun d hd => by
    obtain ⟨_, q2, q3, q4, _⟩ := c4 d hd
    refine ⟨q2, q3, ?_⟩
    have : (List.replicate 3 P.maxPts).getD d 0 = P.maxPts := by
      match d, hd with
      | 0, _ => rfl
      | 1, _ => rfl
      | 2, _ => rfl
    omega
  generalize hs : c.1.start = s at *
  generalize he : c.1.stop = e at *
  obtain ⟨s0, s1, s2, rfl⟩ : ∃ x y w, s = [x, y, w] := by
    match s, c2 with
    | [x, y, w], _ => exact ⟨x, y, w, rfl⟩
  obtain ⟨e0, e1, e2, rfl⟩ : ∃ x y w, e = [x, y, w] := by
    match e, c3 with
    | [x, y, w], _ => exact ⟨x, y, w, rfl⟩
  have i0 : s0 < e0 ∧ e0 ≤ nr + 1 ∧ _ := hin 0 (by decide)
  have i1 : s1 < e1 ∧ e1 ≤ nz + 1 ∧ _ := hin 1 (by decide)
  have i2 : s2 < e2 ∧ e2 ≤ nt + 1 ∧ _ := hin 2 (by decide)
  have hsh : a.shape = [e0 - s0 + 4, e1 - s1 + 4, e2 - s2 + 4] := by rw [← ha.1, c6]; rfl
  refine ⟨c5, c1, by rw [hs, he]; exact hin, by rw [hs, he]; exact hsh, ?_⟩
  rw [hs, he]
  simp only [List.getD_cons_zero, List.getD_cons_succ]
  intro x y w hx hy hw
  have hpadS : padStart [s0, s1, s2] 2 = [(s0 : Int) - 2, (s1 : Int) - 2, (s2 : Int) - 2] := rfl
  have hpadE : padEnd [e0, e1, e2] 2 = [(e0 : Int) + 2, (e1 : Int) + 2, (e2 : Int) + 2] := rfl
  have box : ∀ {b0 b1 b2 f0 f1 f2 j0 j1 j2 : Int}, InBoxZ [b0, b1, b2] [f0, f1, f2] [j0, j1, j2] ↔ (b0 ≤ j0 ∧ j0 < f0) ∧ (b1 ≤ j1 ∧ j1 < f1) ∧ (b2 ≤ j2 ∧ j2 < f2) := by
    intro b0 b1 b2 f0 f1 f2 j0 j1 j2
    constructor
    · rintro ⟨_, _, h⟩
      exact ⟨h 0 (by simp), h 1 (by simp), h 2 (by simp)⟩
    · rintro ⟨h0, h1, h2⟩
      refine ⟨rfl, rfl, fun d hd => ?_⟩
      match d, hd with
      | 0, _ => exact h0
      | 1, _ => exact h1
      | 2, _ => exact h2
      | d + 3, hd => simp at hd
  obtain ⟨v, v1, v2, v3, v4, v5⟩ := c7 [(s0 : Int) - 2 + x, (s1 : Int) - 2 + y, (s2 : Int) - 2 + w] (by
    rw [hpadS, hpadE, box]
    omega)
  have hloc : loc (padStart [s0, s1, s2] 2) [(s0 : Int) - 2 + x, (s1 : Int) - 2 + y, (s2 : Int) - 2 + w] = [x, y, w] := by
    rw [hpadS]
    show [((s0 : Int) - 2 + x - ((s0 : Int) - 2)).toNat, ((s1 : Int) - 2 + y - ((s1 : Int) - 2)).toNat, ((s2 : Int) - 2 + w - ((s2 : Int) - 2)).toNat] = _
    congr 1
    · omega
    · congr 1
      · omega
      · congr 1; omega
  rw [hloc] at v2
  obtain ⟨v', u, u1, u2, u3⟩ := ha.2 [x, y, w] ⟨by rw [c6]; rfl, fun d hd => by
    rw [c6] at hd ⊢
    match d, hd with
    | 0, _ => show x < e0 - s0 + 2 * 2; omega
    | 1, _ => show y < e1 - s1 + 2 * 2; omega
    | 2, _ => show w < e2 - s2 + 2 * 2; omega
    | d + 3, hd => simp [subVec] at hd⟩
  rw [v2] at u1
  cases u1
  refine ⟨u, u2, ?_, fun jr jz jt hjr hjz hjt => ?_⟩
  · rcases u3 with rfl | ⟨l, _⟩
    · exact v1
    · omega
  rw [← hjr, ← hjz, ← hjt] at v3 v4 v5
  have hN : signed (List.replicate 3 0) = [0, 0, 0] := rfl
  have hN' : signed [nr + 1, nz + 1, nt + 1] = [((nr + 1 : Nat) : Int), ((nz + 1 : Nat) : Int), ((nt + 1 : Nat) : Int)] := rfl
  have hmir : mirror [jr, jz, jt] = [-jr, jz, jt] := rfl
  rw [hN, hN', hmir, box] at v5
  rw [hN, hN', box] at v3 v4
  have hval : ∀ {k : Int}, 0 ≤ k → k = |jr| → 0 ≤ jz → 0 ≤ jt → VEq (sample F P.dip enc [P.r0, P.z0, 0] [sr, sz, st] (unsigned [k, jz, jt])) v →
      VEq ((fieldAt F P.dip (P.r0 + sr * ((|jr| : Int) : K)) (P.z0 + sz * (jz : K)) (st * (jt : K))).map enc) u := fun {k} h0 hk h1 h2 hv => by
    have e : sample F P.dip enc [P.r0, P.z0, 0] [sr, sz, st] (unsigned [k, jz, jt]) = (fieldAt F P.dip (P.r0 + sr * ((k.toNat : Nat) : K)) (P.z0 + sz * ((jz.toNat : Nat) : K)) (0 + st * ((jt.toNat : Nat) : K))).map enc := rfl
    have cst : ∀ {q : Int}, 0 ≤ q → ((q.toNat : Nat) : K) = (q : K) := fun {q} hq => by
      rw [← Int.cast_natCast, Int.toNat_of_nonneg hq]
    rw [e, cst h0, cst h1, cst h2, zero_add, hk] at hv
    exact hv.trans u3
  refine ⟨fun a1 a2 a3 a4 a5 => ?_, fun a1 a2 => (v4 (by omega) (by simpa using a1)).trans u3⟩
  by_cases hneg : jr < 0
  · rw [abs_of_neg hneg] at a1
    exact hval (by omega) (abs_of_neg hneg).symm a2 a4 (v5 (by simpa using hneg) (by omega))
  · have hneg : 0 ≤ jr := by omega
    rw [abs_of_nonneg hneg] at a1
    exact hval hneg (abs_of_nonneg hneg).symm a2 a4 (v3 (by omega))

theorem lookups_ok {C : Cfg} {S : Sorter} {Z : SlabSize} (hC : C.Ok) {cs : List (Meta × Arr)} {Pr : List Nat → Meta × Arr → Prop} {B : List Nat → Prop} (hv : C.vd = 2)
    (hcov : ∀ i, B i → ∃ c ∈ cs, InBox c.1.start c.1.stop i) (hP : ∀ i c a, c ∈ cs → InBox c.1.start c.1.stop i → AEq 2 c.2 a → Pr i (c.1, a)) :
    ∀ (is : List (List Nat)) (lib : Lib) (fs : FS), LInv C S Z lib fs cs → lib.cc.Clean → (∀ i ∈ is, B i) →
      ∀ X, ∃ r, lookups { C with chunk := X } is lib fs = .ok r ∧ List.Forall₂ Pr is r
  | [], _, _, _, _, _, _ => ⟨[], rfl, .nil⟩
  | i :: is, lib, fs, h, hcl, hi, X => by
      obtain ⟨c, hc, hci⟩ := hcov i (hi i List.mem_cons_self)
      obtain ⟨lib', fs', a, a1, a2, a3, a4⟩ := chunkAt_keep hC h hcl hc hci
      rw [hv] at a2
      obtain ⟨r, r1, r2⟩ := lookups_ok hC hv hcov hP is lib' fs' a3 a4 (fun j hj => hi j (List.mem_cons_of_mem _ hj)) X
      refine ⟨(c.1, a) :: r, ?_, .cons (hP i c a hc hci a2) r2⟩
      unfold lookups
      rw [chunkAt_chunk hcl, a1]
      simp only [Res.ok_bind, r1]

theorem vol_of {F : Fns K} {pow2 : K → K} {P : Params K} {hs ht : K} (h : DipoleOk F pow2 P hs ht) {nr nz nt : Nat} (h1 : (nr : K) * hs ≤ P.r1 - P.r0) (h2 : (nz : K) * hs ≤ P.z1 - P.z0)
    (h3 : (nt : K) * ht ≤ P.tEnd) : (nr + 1) * ((nz + 1) * (nt + 1)) < 2 ^ 63 := by
  have a1 : (nr : K) ≤ (P.r1 - P.r0) / hs := (le_div_iff₀ h.pos.1).2 h1
  have a2 : (nz : K) ≤ (P.z1 - P.z0) / hs := (le_div_iff₀ h.pos.1).2 h2
  have a3 : (nt : K) ≤ P.tEnd / ht := (le_div_iff₀ h.pos.2).2 h3
  have b1 : (0 : K) ≤ nr := Nat.cast_nonneg _
  have b2 : (0 : K) ≤ nz := Nat.cast_nonneg _
  have b3 : (0 : K) ≤ nt := Nat.cast_nonneg _
  have c : (((nr + 1) * ((nz + 1) * (nt + 1)) : Nat) : K) < ((2 ^ 63 : Nat) : K) := by
    have e : ((2 ^ 63 : Nat) : K) = 2 ^ 63 := by norm_num
    rw [e]
    push_cast
    refine lt_of_le_of_lt ?_ h.vol
    have g1 : (nr : K) + 1 ≤ (P.r1 - P.r0) / hs + 1 := by linarith
    have g2 : (nz : K) + 1 ≤ (P.z1 - P.z0) / hs + 1 := by linarith
    have g3 : (nt : K) + 1 ≤ P.tEnd / ht + 1 := by linarith
    exact mul_le_mul g1 (mul_le_mul g2 g3 (by linarith) (by linarith)) (mul_nonneg (by linarith) (by linarith)) (by linarith)
  exact_mod_cast c

/-- **C63.** The calculation of the Green's function of a dipole succeeds, whatever was in the directory before. Each axis is divided into equal steps from its start to its end. The result can be opened again
    (with any size of the cache) and has the given coordinates and these steps. However often and in whatever order chunks are then looked up, each chunk contains the grid point for which it was
    looked up, and has the field of the dipole at all its points, with the stated rules for points in its overlap that lie outside of the grid. -/
theorem C63_dipole_samples {hst : Host} {junk : Nat → Nat} (hj : ∀ k, junk k < 2 ^ 32) (S : Sorter) (Z : SlabSize) (F : Fns K) (pow2 : K → K) (enc : Option K → Nat) (henc : ∀ x, enc x < 2 ^ 32)
    {uuid uuid' : Nat → List Nat} (hu : FreshNames uuid) (hu' : FreshNames uuid') (P : Params K) {dir tmp : Nat} (hne : tmp ≠ dir) (d : Disk) (hd : ∀ e, e ≠ dir → d.fs (e, .index) = none)
    {hs ht : K} (h : DipoleOk F pow2 P hs ht) :
    ∃ (d' : Disk) (nr nz nt : Nat) (sr sz st : K), electricDipole (dipCfg hst junk) S F pow2 enc uuid uuid' P dir tmp d = .ok d' ∧
      Divides P.r0 P.r1 hs nr sr ∧ Divides P.z0 P.z1 hs nz sz ∧ Divides 0 P.tEnd ht nt st ∧
      ∀ n, ∃ g, load (dipCfg hst junk) S dir n d' =
          .ok (g, ⟨[enc (some P.r0), enc (some P.z0), enc (some 0)], [enc (some P.r1), enc (some P.z1), enc (some P.tEnd)], [enc (some sr), enc (some sz), enc (some st)]⟩) ∧
        ∀ is : List (List Nat), (∀ i ∈ is, ∃ x y w, i = [x, y, w] ∧ x ≤ nr ∧ y ≤ nz ∧ w ≤ nt) → ∃ r, lookups (readerCfg (dipCfg hst junk) n) is g d'.fs = .ok r ∧
          List.Forall₂ (fun i (c : Meta × Arr) => InBox c.1.start c.1.stop i ∧ HasField F P enc nr nz nt sr sz st c.1 c.2) is r := by
  obtain ⟨nr, sr, r1, r2⟩ := divides_of h.pos.1 h.r.1 h.r.2
  obtain ⟨nz, sz, z1, z2⟩ := divides_of h.pos.1 h.z.1 h.z.2
  obtain ⟨nt, st, t1, t2⟩ := divides_of (lo := 0) (hi := P.tEnd) h.pos.2 (by rw [sub_zero]; exact h.t.1) (by rw [sub_zero]; exact h.t.2)
  have hvol := vol_of h r2.fits z2.fits (by have := t2.fits; rwa [sub_zero] at this)
  obtain ⟨d', cs, ps, e1, e2⟩ := dipole_core hj S Z F pow2 enc henc hu hu' P hne d hd h.req r1 z1 t1 ⟨r2.lt, z2.lt, t2.lt⟩ hvol h.pts
  refine ⟨d', nr, nz, nt, sr, sz, st, e1, r2, z2, t2, fun n => ?_⟩
  obtain ⟨g, g1, g2, g3⟩ := load_lib (S := S) (Z := Z) (dipCfg_ok hst junk) (green := d'.green) e2.saved e2.rep e2.len e2.hull (by
      show (nr + 1 - 0) * ((nz + 1 - 0) * ((nt + 1 - 0) * 1)) < _
      simp only [Nat.sub_zero, Nat.mul_one]
      omega) (gm := ⟨[P.r0, P.z0, 0].map fun x => enc (some x), [P.r1, P.z1, P.tEnd].map fun x => enc (some x), [sr, sz, st].map fun x => enc (some x)⟩) (by
      have hm : ∀ l : List K, ∀ v ∈ l.map fun x => enc (some x), v < 2 ^ 32 := fun l v hv => by
        obtain ⟨x, _, rfl⟩ := List.mem_map.1 hv
        exact henc _
      exact ⟨⟨rfl, hm _⟩, ⟨rfl, hm _⟩, ⟨rfl, hm _⟩⟩) e2.green n
  refine ⟨g, g1, fun is his => ?_⟩
  exact lookups_ok (B := fun i => InBox (List.replicate 3 0) [nr + 1, nz + 1, nt + 1] i) (withSize_ok (dipCfg_ok hst junk) n) rfl e2.cover (fun i c a hc hi ha => ⟨hi, hasField e2 hc ha⟩)
    is g d'.fs g3 g2 (fun i hi => by
      obtain ⟨x, y, w, rfl, b1, b2, b3⟩ := his i hi
      rw [box3 rfl rfl]
      exact ⟨x, y, w, rfl, ⟨Nat.zero_le _, by show x < nr + 1; omega⟩, ⟨Nat.zero_le _, by show y < nz + 1; omega⟩, Nat.zero_le _, by show w < nt + 1; omega⟩) (List.replicate 3 (U64 - 1))

/-- **C63**, the excluded case: if an axis is shorter than one requested step the number of steps is zero, and the calculation divides by it. -/
theorem C63_short_axis {hst : Host} {junk : Nat → Nat} (S : Sorter) (F : Fns K) (pow2 : K → K) (enc : Option K → Nat) (uuid uuid' : Nat → List Nat) (P : Params K) (dir tmp : Nat) (d : Disk)
    {hs ht : K} (hreq : reqStep F pow2 P = .ok (hs, ht)) (hp : 0 < hs) (h : P.r0 ≤ P.r1 ∧ P.r1 - P.r0 < hs) : electricDipole (dipCfg hst junk) S F pow2 enc uuid uuid' P dir tmp d = .ub := by
  have h0 : 0 ≤ (P.r1 - P.r0) / hs := div_nonneg (by linarith [h.1]) hp.le
  have h1 : (P.r1 - P.r0) / hs < 1 := by rw [div_lt_one hp]; exact h.2
  have hax : axisOf P.r0 P.r1 hs = .ub := by
    unfold axisOf fdiv toSize
    have h64 : (1 : K) ≤ 2 ^ 64 := one_le_pow₀ (by norm_num)
    have hfl : ⌊(P.r1 - P.r0) / hs⌋₊ = 0 := Nat.floor_eq_zero.2 h1
    rw [if_neg hp.ne', Res.ok_bind, if_neg (by
      rintro (h | h)
      · linarith
      · linarith), Res.ok_bind, hfl, Nat.cast_zero, if_pos rfl]
    rfl
  unfold electricDipole
  rw [hreq]
  simp only [Res.ok_bind, hax]
  rfl

/-- The requested steps, over the real numbers. -/
theorem real_req (P : Params ℝ) (hN : 1 ≤ P.dip.order) (hp : 0 < P.dip.tPeak) (hn : 0 < P.dip.ior) (ho : 0 < P.os) :
    ∃ f : ℝ, 0 < f ∧ f = P.dip.order / (2 * Real.pi * P.dip.tPeak) * Real.sqrt ((2 : ℝ) ^ (1 / ((P.dip.order : ℝ) + 1)) - 1) ∧ fmax realFns (fun x => (2 : ℝ) ^ x) P.dip = .ok f ∧
      reqStep realFns (fun x => (2 : ℝ) ^ x) P = .ok (1 / (f * P.dip.ior) / (2 * P.os), 1 / (2 * f * P.os)) := by
  have hN' : (0 : ℝ) < P.dip.order := by exact_mod_cast hN
  have hden : 0 < 2 * Real.pi * P.dip.tPeak := by have := Real.pi_pos; positivity
  have hpow : 1 < (2 : ℝ) ^ (1 / ((P.dip.order : ℝ) + 1)) := Real.one_lt_rpow (by norm_num) (by positivity)
  have hs : 0 < Real.sqrt ((2 : ℝ) ^ (1 / ((P.dip.order : ℝ) + 1)) - 1) := Real.sqrt_pos.2 (by linarith)
  have hf : 0 < P.dip.order / (2 * Real.pi * P.dip.tPeak) * Real.sqrt ((2 : ℝ) ^ (1 / ((P.dip.order : ℝ) + 1)) - 1) := by positivity
  have hfm : fmax realFns (fun x => (2 : ℝ) ^ x) P.dip = .ok (P.dip.order / (2 * Real.pi * P.dip.tPeak) * Real.sqrt ((2 : ℝ) ^ (1 / ((P.dip.order : ℝ) + 1)) - 1)) := by
    unfold fmax fdiv
    show (if (2 * Real.pi * P.dip.tPeak : ℝ) = 0 then _ else _ : Res ℝ).bind _ = _
    rw [if_neg hden.ne']
    rfl
  refine ⟨_, hf, rfl, hfm, ?_⟩
  unfold reqStep
  rw [hfm]
  simp only [Res.ok_bind]
  unfold fdiv
  rw [if_neg (by positivity), Res.ok_bind, if_neg (by positivity), Res.ok_bind, if_neg (by positivity)]
  rfl

/-- **C63**, the axis: if the grid starts at the axis of symmetry, the value in the mirrored layers is the field at the (negative) coordinate of the point. -/
theorem C63_axis (F : Fns K) (D : Dipole K) (s z t : K) (j : Int) : fieldAt F D (0 + s * ((|j| : Int) : K)) z t = fieldAt F D (s * (j : K)) z t := by
  rw [zero_add]
  rcases abs_choice j with e | e
  · rw [e]
  · rw [e, Int.cast_neg, mul_neg, C65_even]

/-! ### The hypotheses can be met -/

namespace Ex63

/-- Four requested steps in radial direction, from the axis, seven and a half in vertical direction, ten in time; ice, oversampling factor 2, and chunks of 3 x 3 x 3 points. -/
theorem ok : ∃ (P : Params ℝ) (hs ht : ℝ), P.dip = Ex65.ice ∧ P.os = 2 ∧ P.r0 = 0 ∧ P.r1 = 4 * hs ∧ P.maxPts = 3 ∧ DipoleOk realFns (fun x => (2 : ℝ) ^ x) P hs ht := by
  obtain ⟨f, f1, _, _, f2⟩ := real_req ⟨0, 0, 0, 0, 0, 2, Ex65.ice, 3⟩ (by decide) (by norm_num [Ex65.ice]) (by norm_num [Ex65.ice]) (by norm_num)
  have hi : (0 : ℝ) < Ex65.ice.ior := by norm_num [Ex65.ice]
  simp only at f2
  have hs : 0 < 1 / (f * Ex65.ice.ior) / (2 * 2) := by positivity
  have ht : 0 < 1 / (2 * f * 2) := by positivity
  generalize 1 / (f * Ex65.ice.ior) / (2 * 2) = a at *
  generalize 1 / (2 * f * 2) = b at *
  refine ⟨⟨0, -a, 4 * a, 13 / 2 * a, 10 * b, 2, Ex65.ice, 3⟩, a, b, rfl, rfl, rfl, rfl, rfl, f2, ⟨hs, ht⟩, ?_, ?_, ?_, ?_, by show 0 < 3 ∧ 3 + 4 < 2 ^ 16; decide⟩
  · constructor <;> simp only <;> linarith
  · constructor <;> simp only <;> linarith
  · constructor <;> simp only <;> linarith
  · simp only
    have e1 : (4 * a - 0) / a = 4 := by field_simp; ring
    have e2 : (13 / 2 * a - -a) / a = 15 / 2 := by field_simp; ring
    have e3 : 10 * b / b = 10 := by field_simp
    rw [e1, e2, e3]
    norm_num

theorem names : FreshNames fun k => [k] := fun k => ⟨by simp, by simp, fun j hj h => hj (by simpa using h)⟩

/-- C63 applies. -/
example (d : Disk) (hd : ∀ e, e ≠ 0 → d.fs (e, .index) = none) : ∃ (P : Params ℝ) (d' : Disk), P.dip = Ex65.ice ∧
    electricDipole (dipCfg .little fun _ => 77) Tree.Ex.S realFns (fun x => (2 : ℝ) ^ x) (fun o => o.elim 0x7fc00000 fun x => ⌊|x|⌋₊ % 2 ^ 32) (fun k => [k]) (fun k => [k]) P 0 1 d = .ok d' := by
  obtain ⟨P, hs, ht, h1, _, _, _, _, h2⟩ := ok
  obtain ⟨d', _, _, _, _, _, _, h3, _⟩ := C63_dipole_samples (hst := .little) (junk := fun _ => 77) (fun _ => by decide) Tree.Ex.S Tree.Ex.Z realFns (fun x => (2 : ℝ) ^ x)
    (fun o => o.elim 0x7fc00000 fun x => ⌊|x|⌋₊ % 2 ^ 32) (fun o => by
      cases o with
      | none => show 0x7fc00000 < 2 ^ 32; decide
      | some x => exact Nat.mod_lt _ (by decide)) names names P (dir := 0) (tmp := 1) (by decide) d hd h2
  exact ⟨P, d', h1, h3⟩

end Ex63

end Verif.Analytic
