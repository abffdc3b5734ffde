import Verif.Analytic.Props63
import Verif.Green.Request
import Verif.Green.Props42
/-
The Green's function of a dipole, when it is loaded again, serves the samples of the field of the dipole.
-/
set_option linter.unusedSectionVars false
namespace Verif.Analytic
open Verif Verif.ND Verif.Dist Verif.Tree Verif.Bytes Verif.Ops Verif.Rebuild Verif.Green Verif.NullSup

variable {K : Type} [Field K] [LinearOrder K] [IsStrictOrderedRing K] [FloorRing K]

/-- The sampled field, component `c`, at the indices `i`, `j`, `k`: the (rounded) field of the dipole at the grid points, mirrored about the index 0 in radial direction, and zero behind the ends of the grid.
    `val` gives the number that belongs to 32 bits, so `val (enc x)` is the number `x` after rounding. -/
def gridField (F : Fns K) (P : Params K) (enc : Option K → Nat) (val : Nat → K) (nr nz nt : Nat) (sr sz st : K) (c : Nat) (i j k : Int) : K :=
  if |i| ≤ nr ∧ (0 ≤ j ∧ j ≤ nz) ∧ 0 ≤ k ∧ k ≤ nt then val (enc ((fieldAt F P.dip (P.r0 + sr * ((|i| : Int) : K)) (P.z0 + sz * (j : K)) (st * (k : K))).getD c none)) else 0

/-- The points at which the chunks have the values of `gridField`: those with a non-negative index in radial direction, and those whose mirror image belongs to the grid. -/
def Known (nr nz nt : Nat) (i j k : Int) : Prop := 0 ≤ i ∨ (-(nr : Int) ≤ i ∧ (0 ≤ j ∧ j ≤ nz) ∧ 0 ≤ k ∧ k ≤ nt)

/-- The contents of one chunk. -/
theorem field_parts {F : Fns K} {P : Params K} {enc : Option K → Nat} {val : Nat → K} (hval : ∀ x, FloatIsZero x → val x = 0) {nr nz nt : Nat} {sr sz st : K} {m : Meta} {a : Arr}
    (h : HasField F P enc nr nz nt sr sz st m a) {c : Nat} {i j k : Int} (hc : c < 2) (hin : InPadded m i j k) (hQ : Known nr nz nt i j k) :
    ∃ v, a.get 2 [(i - m.start.getD 0 0 + m.overlap).toNat, (j - m.start.getD 1 0 + m.overlap).toNat, (k - m.start.getD 2 0 + m.overlap).toNat] = .ok v ∧
      val (v.getD c 0) = gridField F P enc val nr nz nt sr sz st c i j k := by
  have ho := h.overlap
  unfold InPadded at hin
  rw [ho] at hin ⊢
  obtain ⟨i0, i1, i2⟩ := hin
  have s0 := h.inside 0 (by decide)
  have s1 := h.inside 1 (by decide)
  have s2 := h.inside 2 (by decide)
  obtain ⟨v, v1, v2, v3⟩ := h.values (i - m.start.getD 0 0 + (2 : Nat)).toNat (j - m.start.getD 1 0 + (2 : Nat)).toNat (k - m.start.getD 2 0 + (2 : Nat)).toNat (by omega) (by omega) (by omega)
  obtain ⟨w1, w2⟩ := v3 i j k (by omega) (by omega) (by omega)
  refine ⟨v, v1, ?_⟩
  unfold gridField
  have hl : ∀ r z t : K, (fieldAt F P.dip r z t).length = 2 := fun _ _ _ => rfl
  by_cases hg : |i| ≤ nr ∧ (0 ≤ j ∧ j ≤ nz) ∧ 0 ≤ k ∧ k ≤ nt
  · rw [if_pos hg, ← val_eq hval (w1 hg.1 hg.2.1.1 hg.2.1.2 hg.2.2.1 hg.2.2.2) (by rw [List.length_map, hl]; exact hc)]
    rw [List.getD_eq_getElem?_getD, List.getElem?_map, List.getD_eq_getElem?_getD, List.getElem?_eq_getElem (by rw [hl]; exact hc)]
    rfl
  · rw [if_neg hg]
    have hi : 0 ≤ i := by
      rcases hQ with h | h
      · exact h
      · by_contra hn
        apply hg
        rw [abs_of_neg (by omega)]
        exact ⟨by omega, h.2⟩
    have := w2 hi (by
      rw [abs_of_nonneg hi] at hg
      omega)
    rw [← val_eq hval this hc]
    have : c = 0 ∨ c = 1 := by omega
    rcases this with rfl | rfl <;> exact hval _ (.inl rfl)

/-- Calculation of the Green's function, and loading it. -/
theorem dipole_serves {hst : Host} {junk : Nat → Nat} (hj : ∀ k, junk k < 2 ^ 32) (S : Sorter) (Z : SlabSize) (F : Fns K) (pow2 : K → K) (enc : Option K → Nat) (henc : ∀ x, enc x < 2 ^ 32)
    {uuid uuid' : Nat → List Nat} (hu : FreshNames uuid) (hu' : FreshNames uuid') (P : Params K) {dir tmp : Nat} (hne : tmp ≠ dir) (d : Disk) (hd : ∀ e, e ≠ dir → d.fs (e, .index) = none)
    {hs ht : K} (h : DipoleOk F pow2 P hs ht) {val : Nat → K} (hval : ∀ x, FloatIsZero x → val x = 0) :
    ∃ (d' : Disk) (nr nz nt : Nat) (sr sz st : K), electricDipole (dipCfg hst junk) S F pow2 enc uuid uuid' P dir tmp d = .ok d' ∧
      Divides P.r0 P.r1 hs nr sr ∧ Divides P.z0 P.z1 hs nz sz ∧ Divides 0 P.tEnd ht nt st ∧
      ∀ n, ∃ (g : Lib) (gm : GFMeta) (ms : List Meta) (I : Lib × FS → Prop), load (dipCfg hst junk) S dir n d' = .ok (g, gm) ∧
        gmetaOf val gm = ⟨val (enc (some P.r0)), val (enc (some P.z0)), val (enc (some 0)), val (enc (some sr)), val (enc (some sz)), val (enc (some st))⟩ ∧
        Chunks ⟨nr, nz, nt, P.maxPts, 2, false⟩ ms ∧ I (g, d'.fs) ∧
        Serves (libOf (readerCfg (dipCfg hst junk) n) val) I ms (gridField F P enc val nr nz nt sr sz st) (Known nr nz nt) ∧
        Searches (rangeLibOf (readerCfg (dipCfg hst junk) n) val) I ms ∧ gm.end_pos = [P.r1, P.z1, P.tEnd].map fun x => enc (some x) := by
  obtain ⟨nr, sr, r1, r2⟩ := divides_of h.pos.1 h.r.1 h.r.2
  obtain ⟨nz, sz, z1, z2⟩ := divides_of h.pos.1 h.z.1 h.z.2
  obtain ⟨nt, st, t1, t2⟩ := divides_of (lo := 0) (hi := P.tEnd) h.pos.2 (by rw [sub_zero]; exact h.t.1) (by rw [sub_zero]; exact h.t.2)
  have hvol := vol_of h r2.fits z2.fits (by have := t2.fits; rwa [sub_zero] at this)
  obtain ⟨d', cs, ps, e1, e2⟩ := dipole_core hj S Z F pow2 enc henc hu hu' P hne d hd h.req r1 z1 t1 ⟨r2.lt, z2.lt, t2.lt⟩ hvol h.pts
  refine ⟨d', nr, nz, nt, sr, sz, st, e1, r2, z2, t2, fun n => ?_⟩
  obtain ⟨g, g1, g2, g3⟩ := load_lib (S := S) (Z := Z) (dipCfg_ok hst junk) (green := d'.green) e2.saved e2.rep e2.len e2.hull (by
      show (nr + 1 - 0) * ((nz + 1 - 0) * ((nt + 1 - 0) * 1)) < _
      simp only [Nat.sub_zero, Nat.mul_one]
      omega) (gm := ⟨[P.r0, P.z0, 0].map fun x => enc (some x), [P.r1, P.z1, P.tEnd].map fun x => enc (some x), [sr, sz, st].map fun x => enc (some x)⟩) (by
      have hm : ∀ l : List K, ∀ v ∈ l.map fun x => enc (some x), v < 2 ^ 32 := fun l v hv => by
        obtain ⟨x, _, rfl⟩ := List.mem_map.1 hv
        exact henc _
      exact ⟨⟨rfl, hm _⟩, ⟨rfl, hm _⟩, ⟨rfl, hm _⟩⟩) e2.green n
  have hch : Chunks ⟨nr, nz, nt, P.maxPts, 2, false⟩ (cs.map Prod.fst) := by
    refine ⟨h.pts.1, fun x y w => ⟨?_, fun hx => ?_⟩, fun m hm => ?_, fun m hm m' hm' he => ?_, fun _ m hm => ?_, fun m hm => ?_⟩
    · rintro ⟨m, hm, b1, b2, b3⟩
      obtain ⟨c, hc, rfl⟩ := List.mem_map.1 hm
      obtain ⟨_, ⟨c2, c3, c4⟩, _⟩ := e2.chunk c hc
      simp only [List.length_replicate] at c2 c3 c4
      have q0 := b3 0 (by omega)
      have q1 := b3 1 (by omega)
      have q2 := b3 2 (by omega)
      have p0 := (c4 0 (by decide)).2.2.1
      have p1 := (c4 1 (by decide)).2.2.1
      have p2 := (c4 2 (by decide)).2.2.1
      simp only [List.getD_cons_zero, List.getD_cons_succ] at q0 q1 q2 p0 p1 p2
      show x ≤ nr ∧ y ≤ nz ∧ w ≤ nt
      omega
    · replace hx : x ≤ nr ∧ y ≤ nz ∧ w ≤ nt := hx
      obtain ⟨c, hc, hi⟩ := e2.cover [x, y, w] ((box3 rfl rfl).2 ⟨x, y, w, rfl, ⟨Nat.zero_le _, by show x < nr + 1; omega⟩, ⟨Nat.zero_le _, by show y < nz + 1; omega⟩, Nat.zero_le _, by show w < nt + 1; omega⟩)
      exact ⟨c.1, List.mem_map_of_mem hc, hi⟩
    · obtain ⟨c, hc, rfl⟩ := List.mem_map.1 hm
      exact (e2.chunk c hc).2.1
    · obtain ⟨c, hc, rfl⟩ := List.mem_map.1 hm
      obtain ⟨c', hc', rfl⟩ := List.mem_map.1 hm'
      rw [chunk_uniq g3.chunky hc hc' he]
    · obtain ⟨c, hc, rfl⟩ := List.mem_map.1 hm
      exact (e2.chunk c hc).2.2.1
    · obtain ⟨c, hc, rfl⟩ := List.mem_map.1 hm
      exact (e2.chunk c hc).1
  have hne' : cs ≠ [] := fun e => by
    obtain ⟨m, hm, _⟩ := (hch.cover 0 0 0).2 ⟨Nat.zero_le _, Nat.zero_le _, Nat.zero_le _⟩
    rw [e] at hm; cases hm
  refine ⟨g, _, cs.map Prod.fst, fun s => LInv { dipCfg hst junk with size := n } S Z s.1 s.2 cs ∧ s.1.cc.Clean, g1, rfl, hch, ⟨g3, g2⟩, ?_, fun s lo hi hs' hlo hhi => rangeLib_searches (withSize_ok (dipCfg_ok hst junk) n) rfl val cs s lo hi hs'.1 hlo hhi, rfl⟩
  refine serves_clean (lib_serves (withSize_ok (dipCfg_ok hst junk) n) rfl rfl hval hne' ⟨fun q hq hsp c i j k hc hp hQ => ?_, fun q hq hz => ?_⟩ (s0 := (g, d'.fs)) g3) _
  · have hpl := g3.chunky.placed q hq
    have ha : AEq 2 q.2 q.2 := AEq.refl (withSize_ok (dipCfg_ok hst junk) n) (g3.chunky.ok.arr _ _ _ (g3.lookup hq))
    exact field_parts hval (hasField e2 hq ha) hc hp hQ
  · rw [(e2.chunk q hq).2.2.1] at hz; cases hz

end Verif.Analytic
