import Verif.Green.InnerProof
import Verif.Dist.LibRead
/-
The chunk library of `Dist/` provides what `CylindricalGreensFunction` needs (`Serves`).
-/
namespace Verif.Green
open Verif Verif.ND Verif.Dist Verif.Tree Verif.NullSup

set_option linter.unusedSectionVars false

variable {K : Type} [Field K] [LinearOrder K] [IsStrictOrderedRing K] [FloorRing K]

/-- `CylindricalGreensFunction` is a `ChunkLibrary` (GreensFunction.hh 55-58): `m_index.GetChunk` and `m_cache.RetrieveChunk`. The stored words are bit patterns; `val` gives
    the numbers they stand for. -/
def libOf (C : Cfg) (val : Nat → K) : Library (Lib × FS) K where
  find s p := (s.1.idx.getChunk p).bind fun r => .ok ((⟨s.1.cc, r.1⟩, s.2), r.2.map Prod.snd)
  load s m := (retrieve C s.1.cc s.2 m).bind fun q => .ok ((⟨q.1, s.1.idx⟩, q.2.1), q.2.2.shape, q.2.2.buf.map val)

/-- The chunks are parts of one sampled field: in the stored chunks, the element at every position, also in the padding, has the value of the field; the field
    vanishes on the all-zero chunks. (The last parameter, if given, restricts this to the positions that satisfy `Q`.) -/
structure PartsOf (val : Nat → K) (cs : List (Meta × Arr)) (A : Nat → Int → Int → Int → K) (Q : Int → Int → Int → Prop := fun _ _ _ => True) : Prop where
  stored : ∀ q ∈ cs, q.1.ctype = .specified → ∀ c i j k, c < 2 → InPadded q.1 i j k → Q i j k →
    ∃ v, q.2.get 2 [(i - q.1.start.getD 0 0 + q.1.overlap).toNat, (j - q.1.start.getD 1 0 + q.1.overlap).toNat, (k - q.1.start.getD 2 0 + q.1.overlap).toNat] = .ok v ∧
      val (v.getD c 0) = A c i j k
  zero : ∀ q ∈ cs, q.1.ctype = .all_null → ∀ c i j k, c < 2 → InPadded q.1 i j k → Q i j k → A c i j k = 0

variable {C : Cfg} {S : Sorter} {Z : SlabSize}

theorem getChunk_none (hC : C.Ok) {x : Index} {ms : List Meta} (h : IdxInv C S Z x ms) (hne : ms ≠ []) {p : List Nat} (hp : IsPoint C.dims p)
    (hno : ∀ m ∈ ms, ¬ InBox m.start m.stop p) :
    ∃ t, x.getChunk p = .ok ({ x with tree := t, valid := false }, none) ∧ IdxInv C S Z { x with tree := t, valid := false } ms := by
  obtain ⟨t, o, e1, e2, e3, e4⟩ := C21_point_search hC.dims h.reach (h.ne hne) hp
  have ho : o = none := by
    cases o with
    | none => rfl
    | some y =>
      obtain ⟨e, f1, f2, f3⟩ := e3 y rfl
      obtain ⟨j, n, g1, g2⟩ := h.mem f1
      subst g2
      exact absurd f3 (hno n (List.mem_of_getElem? g1))
  subst ho
  refine ⟨t, ?_, h.heap, ?_, .search h.reach (h.ne hne) hp e1, h.box⟩
  · unfold Index.getChunk
    rw [e1]; rfl
  · intro j; show t.entries[j]? = _; rw [e2]; exact h.ents j

theorem read_map (val : Nat → K) (vd : Nat) (h : Hdr) (buf : List Nat) (i : List Nat) {v : List Nat} (hr : ND.read vd h buf i = .ok v) :
    ND.read vd h (buf.map val) i = .ok (v.map val) := by
  unfold ND.read at hr ⊢
  by_cases h1 : hasIndex h.shape i = true
  · rw [if_pos h1] at hr ⊢
    rw [List.length_map]
    by_cases h2 : flatInd h i + vd ≤ buf.length
    · rw [if_pos h2] at hr ⊢
      cases hr
      rw [List.map_take, List.map_drop]
    · rw [if_neg h2] at hr; cases hr
  · rw [if_neg h1] at hr; cases hr

theorem lib_serves (hC : C.Ok) (hd : C.dims = 3) (hv : C.vd = 2) {val : Nat → K} (hval : ∀ x, FloatIsZero x → val x = 0) {cs : List (Meta × Arr)} (hne : cs ≠ [])
    {A : Nat → Int → Int → Int → K} {Q : Int → Int → Int → Prop} (hA : PartsOf val cs A Q) {s0 : Lib × FS} (h0 : LInv C S Z s0.1 s0.2 cs) :
    Serves (libOf C val) (fun s => LInv C S Z s.1 s.2 cs) (cs.map Prod.fst) A Q where
  ok m hm := by
    obtain ⟨c, hc, rfl⟩ := List.mem_map.1 hm
    have hp := h0.chunky.placed c hc
    exact ⟨by rw [hp.startLen, hd], by rw [hp.shapeLen, hd], hp.stop, fun d h => hp.lt d (by omega), hp.ovl, hp.offset⟩
  found s p m h hm hin := by
    obtain ⟨c, hc, rfl⟩ := List.mem_map.1 hm
    obtain ⟨k, hk⟩ := List.getElem?_of_mem hc
    have hpl := h.chunky.placed c hc
    obtain ⟨t, e1, e2⟩ := h.idx.getChunk_ok hC (hpl.point hin) (i := k) (m := c.1) (by rw [List.getElem?_map, hk]; rfl) (h.chunky.onlyAt hk hin)
    refine ⟨(⟨s.1.cc, { s.1.idx with tree := t, valid := false }⟩, s.2), ?_, ?_⟩
    · simp only [libOf, e1, Res.ok_bind, Option.map_some]
    · exact ⟨h.chunky, e2, h.dir, h.cache, metaValid_false rfl⟩
  missing s p h hl hlt hno := by
    have hp : IsPoint C.dims p := ⟨by rw [hl, hd], fun x hx => by
      obtain ⟨i, hi, rfl⟩ := List.mem_iff_getElem.1 hx
      have := hlt i (by omega)
      rwa [List.getD_eq_getElem?_getD, List.getElem?_eq_getElem hi] at this⟩
    obtain ⟨t, e1, e2⟩ := getChunk_none hC h.idx (by simpa using hne) hp hno
    refine ⟨(⟨s.1.cc, { s.1.idx with tree := t, valid := false }⟩, s.2), ?_, ?_⟩
    · simp only [libOf, e1, Res.ok_bind, Option.map_none]
    · exact ⟨h.chunky, e2, h.dir, h.cache, metaValid_false rfl⟩
  load s m h hm hsp := by
    obtain ⟨c, hc, rfl⟩ := List.mem_map.1 hm
    have hpl := h.chunky.placed c hc
    obtain ⟨z, hz⟩ := h.cache
    obtain ⟨cc', fs', s', b, f1, f2, f3, f4, f5, f6⟩ := retrieve_ok hC h.chunky.ok hz (m := c.1) (a := c.2) (h.lookup hc)
    have hsh : b.shape = c.1.shape.map (· + 2 * c.1.overlap) := by rw [← f5.1, hpl.arr, padOf_spec hsp]
    refine ⟨(⟨cc', s.1.idx⟩, fs'), b.buf.map val, ?_, ⟨h.chunky, h.idx, f2.trans h.dir, ⟨s', f3⟩, h.valid⟩, ?_, ?_⟩
    · simp only [libOf, f1, Res.ok_bind, hsh]
    · rw [List.length_map, ← hsh]
      have := f4.len
      rw [hv] at this; exact this
    · intro e i j k he hin hQ
      obtain ⟨v, g1, g2⟩ := hA.stored c hc hsp e i j k he hin hQ
      have hvalid : ValidInd c.2.shape [(i - c.1.start.getD 0 0 + c.1.overlap).toNat, (j - c.1.start.getD 1 0 + c.1.overlap).toNat, (k - c.1.start.getD 2 0 + c.1.overlap).toNat] := by
        refine ⟨by rw [hpl.arrLen, hd]; rfl, fun d hdd => ?_⟩
        rw [hpl.arrLen, hd] at hdd
        rw [hpl.getD_arr (by omega), padOf_spec hsp]
        have := hpl.getD_stop d
        obtain ⟨q0, q1, q2⟩ := hin
        match d, hdd with
        | 0, _ => simp only [List.getD_cons_zero]; omega
        | 1, _ => simp only [List.getD_cons_zero, List.getD_cons_succ]; omega
        | 2, _ => simp only [List.getD_cons_zero, List.getD_cons_succ]; omega
      obtain ⟨v', w, u1, u2, u3⟩ := f5.2 _ hvalid
      rw [hv] at u1 u2
      rw [g1] at u1
      cases u1
      have hr : ND.read 2 (mkHdr 2 (c.1.shape.map (· + 2 * c.1.overlap))) (b.buf.map val)
          [(i - c.1.start.getD 0 0 + c.1.overlap).toNat, (j - c.1.start.getD 1 0 + c.1.overlap).toNat, (k - c.1.start.getD 2 0 + c.1.overlap).toNat] = .ok (w.map val) := by
        apply read_map
        rw [← hsh]; exact u2
      unfold component
      rw [hr]
      simp only
      have hwl : w.length = 2 := by
        have := u2
        unfold Arr.get ND.read at this
        split at this
        · split at this
          · cases this; rw [List.length_take, List.length_drop]; omega
          · cases this
        · cases this
      rw [← g2]
      have ew : (w.map val).getD e 0 = val (w.getD e 0) := by
        rw [List.getD_eq_getElem?_getD, List.getElem?_map, List.getD_eq_getElem?_getD, List.getElem?_eq_getElem (by omega)]; rfl
      rw [ew]
      rcases u3 with rfl | ⟨l1, l2, l3⟩
      · rfl
      · have gm : ∀ (l : List Nat), e < l.length → l.getD e 0 ∈ l := by
          intro l hl
          rw [List.getD_eq_getElem?_getD, List.getElem?_eq_getElem hl]; exact List.getElem_mem hl
        rw [hval _ (l2 _ (gm v (by omega))), hval _ (l3 _ (gm w (by omega)))]
  null m hm hz c i j k hc hin hQ := by
    obtain ⟨q, hq, rfl⟩ := List.mem_map.1 hm
    exact hA.zero q hq hz c i j k hc hin hQ

end Verif.Green
