import Verif.Rebuild.PadProof
import Verif.Dist.Clean
/-
One rebuilt chunk: its contents.
-/
namespace Verif.Rebuild
open Verif Verif.ND Verif.Dist Verif.Tree Verif.NullSup

/-- The signed index as an index. -/
def unsigned (i : List Int) : List Nat := i.map Int.toNat

/-- The value at `i` of the array with chunks `cs`. -/
noncomputable def srcVal (vd : Nat) (cs : List (Meta × Arr)) (i : List Int) : List Nat :=
  open Classical in
  if h : ∃ c, c ∈ cs ∧ InBox c.1.start c.1.stop (unsigned i) then elemOr (h.choose.2.get vd (localInd h.choose.1 (unsigned i))) else []

theorem srcVal_eq {C : Cfg} {cs : List (Meta × Arr)} (h : Chunky C cs) {c : Meta × Arr} (hc : c ∈ cs) {i : List Int} (hi : InBox c.1.start c.1.stop (unsigned i)) :
    srcVal C.vd cs i = elemOr (c.2.get C.vd (localInd c.1 (unsigned i))) := by
  unfold srcVal
  have hex : ∃ c, c ∈ cs ∧ InBox c.1.start c.1.stop (unsigned i) := ⟨c, hc, hi⟩
  rw [dif_pos hex]
  have hs := hex.choose_spec
  have : hex.choose = c := by
    obtain ⟨k, hk⟩ := List.getElem?_of_mem hc
    obtain ⟨k', hk'⟩ := List.getElem?_of_mem hs.1
    by_cases e : k = k'
    · subst e; rw [hk] at hk'; cases hk'; rfl
    · exact absurd ⟨hi, hs.2⟩ (h.disj.of_ne hk hk' e _)
  rw [this]

/-- The start of the padded chunk. -/
def padStart (b : List Nat) (o : Nat) : List Int := b.map fun (n : Nat) => (n : Int) - (o : Int)

/-- The end of the padded chunk. -/
def padEnd (e : List Nat) (o : Nat) : List Int := e.map fun (n : Nat) => (n : Int) + (o : Int)

theorem getD_padStart {b : List Nat} {o d : Nat} (h : d < b.length) : (padStart b o).getD d 0 = (b.getD d 0 : Int) - o := by
  unfold padStart
  simp only [List.getD_eq_getElem?_getD, List.getElem?_map, List.getElem?_eq_getElem h]
  rfl

theorem getD_padEnd {b : List Nat} {o d : Nat} (h : d < b.length) : (padEnd b o).getD d 0 = (b.getD d 0 : Int) + o := by
  unfold padEnd
  simp only [List.getD_eq_getElem?_getD, List.getElem?_map, List.getElem?_eq_getElem h]
  rfl

theorem getD_unsigned (i : List Int) (d : Nat) : (unsigned i).getD d 0 = (i.getD d 0).toNat := by
  unfold unsigned
  simp only [List.getD_eq_getElem?_getD, List.getElem?_map]
  cases i[d]? <;> simp

theorem unsigned_signed (n : List Nat) : unsigned (signed n) = n := by
  unfold unsigned signed
  rw [List.map_map]
  conv => rhs; rw [← List.map_id n]
  apply List.map_congr_left
  intro x _
  simp

theorem inBox_unsigned {b e : List Nat} {i : List Int} (h : InBoxZ (signed b) (signed e) i) : InBox b e (unsigned i) := by
  have h1 : i.length = b.length := by rw [h.1]; simp [signed]
  have h2 : i.length = e.length := by rw [h.2.1]; simp [signed]
  refine ⟨by simp [unsigned, h1], by simp [unsigned, h2], fun d hd => ?_⟩
  have := h.2.2 d (by simpa [unsigned] using hd)
  rw [getD_signed, getD_signed] at this
  rw [getD_unsigned]; omega

theorem inBoxZ_signed {b e i : List Nat} : InBoxZ (signed b) (signed e) (signed i) ↔ InBox b e i := by
  constructor
  · intro h; have := inBox_unsigned h; rwa [unsigned_signed] at this
  · rintro ⟨h1, h2, h3⟩
    refine ⟨by simp [signed, h1], by simp [signed, h2], fun d hd => ?_⟩
    rw [getD_signed, getD_signed, getD_signed]
    have := h3 d (by simpa [signed] using hd)
    omega

/-- The chunk `[b, e)` lies in the array `[gs, ge)` that the chunks `cs` fill, and all numbers (with padding on both sides) fit into `int`. -/
structure Ctx (R : RCfg) (cs : List (Meta × Arr)) (b e : List Nat) : Prop where
  bLen : b.length = R.C.dims
  eLen : e.length = R.C.dims
  gsLen : R.gs.length = R.C.dims
  geLen : R.ge.length = R.C.dims
  sub : ∀ d < R.C.dims, R.gs.getD d 0 ≤ b.getD d 0 ∧ b.getD d 0 < e.getD d 0 ∧ e.getD d 0 ≤ R.ge.getD d 0 ∧ R.ge.getD d 0 + 2 * R.overlap < 2 ^ 31
  filled : ∀ i, InBox R.gs R.ge i → ∃ c ∈ cs, InBox c.1.start c.1.stop i

section ctx
variable {R : RCfg} {cs : List (Meta × Arr)} {b e : List Nat} {Z : SlabSize}

theorem Ctx.ovl (h : Ctx R cs b e) (hC : R.C.Ok) : 2 * R.overlap < 2 ^ 31 := by have := h.sub 0 hC.dims; omega

theorem Ctx.mid (h : Ctx R cs b e) : Mid (padStart b R.overlap) (padEnd e R.overlap) := by
  have h1 := h.bLen
  have h2 := h.eLen
  refine ⟨by simp [padStart, padEnd, h1, h2], fun d hd => ?_⟩
  have hd : d < R.C.dims := by simpa [padStart, h1] using hd
  have := h.sub d hd
  rw [getD_padStart (by omega), getD_padEnd (by omega)]
  omega

theorem Ctx.extents (h : Ctx R cs b e) : extents (padStart b R.overlap) (padEnd e R.overlap) = (subVec e b).map (· + 2 * R.overlap) := by
  have h1 := h.bLen
  have h2 := h.eLen
  apply ext_getD
  · simp [Rebuild.extents, padStart, padEnd, subVec, h1, h2]
  · intro d hd
    have hd : d < R.C.dims := by simpa [Rebuild.extents, padStart, padEnd, h1, h2] using hd
    have := h.sub d hd
    rw [getD_extents (by simp [padStart, padEnd, h1, h2]), getD_padStart (by omega), getD_padEnd (by omega)]
    have hl : d < (subVec e b).length := by rw [length_subVec (by omega)]; omega
    rw [List.getD_eq_getElem?_getD (l := List.map _ _), List.getElem?_map, List.getElem?_eq_getElem hl]
    have hg := getD_subVec (a := e) (b := b) (by omega) d
    rw [List.getD_eq_getElem?_getD, List.getElem?_eq_getElem hl] at hg
    simp only [Option.map_some, Option.getD_some] at hg ⊢
    rw [hg]; omega

theorem Ctx.meets (h : Ctx R cs b e) : Meets R.gs R.ge (padStart b R.overlap) (padEnd e R.overlap) := by
  have h1 := h.bLen
  have h2 := h.eLen
  have h3 := h.gsLen
  have h4 := h.geLen
  refine ⟨⟨by simp [padStart]; omega, by simp [padStart]; omega, by simp [padStart, padEnd]; omega⟩, fun d hd => ?_, fun d hd => ?_⟩ <;>
  · have hd : d < R.C.dims := by simpa [padStart, h1] using hd
    have := h.sub d hd
    first | (rw [getD_padStart (by omega), getD_padEnd (by omega)]; omega) | omega

/-- The part of the padded chunk inside of the array. -/
theorem Ctx.lohi (h : Ctx R cs b e) :
    (vmaxU R.gs (padStart b R.overlap)).length = R.C.dims ∧ (vminU R.ge (padEnd e R.overlap)).length = R.C.dims ∧ ∀ d < R.C.dims,
      ((vmaxU R.gs (padStart b R.overlap)).getD d 0 : Int) = max (R.gs.getD d 0 : Int) ((b.getD d 0 : Int) - R.overlap) ∧
      ((vminU R.ge (padEnd e R.overlap)).getD d 0 : Int) = min (R.ge.getD d 0 : Int) ((e.getD d 0 : Int) + R.overlap) := by
  have h1 := h.bLen
  have h2 := h.eLen
  have h3 := h.gsLen
  have h4 := h.geLen
  refine ⟨by simp [vmaxU, padStart]; omega, by simp [vminU, padEnd]; omega, fun d hd => ?_⟩
  have := h.sub d hd
  unfold vmaxU vminU
  rw [getD_zip (by omega) (by simp [padStart]; omega) 0 0, getD_zip (by omega) (by simp [padEnd]; omega) 0 0, getD_padStart (by omega), getD_padEnd (by omega)]
  constructor
  · split
    · omega
    · rw [u64_eq (by omega) (by omega)]; omega
  · split
    · omega
    · rw [u64_eq (by omega) (by omega)]; omega

theorem asInt_ok {v : List Nat} (h : ∀ d < v.length, v.getD d 0 < 2 ^ 31) : asInt v = signed v := by
  unfold asInt signed
  apply List.map_congr_left
  intro x hx
  obtain ⟨d, hd, rfl⟩ := List.getElem_of_mem hx
  have := h d hd
  rw [List.getD_eq_getElem?_getD, List.getElem?_eq_getElem hd, Option.getD_some] at this
  exact i32_eq (by omega) (by omega)

theorem VEq.bits {v w : List Nat} (h : VEq v w) (hv : ∀ x ∈ v, x < 2 ^ 32) : ∀ x ∈ w, x < 2 ^ 32 := by
  rcases h with rfl | ⟨_, _, h3⟩
  · exact hv
  · intro x hx
    have := floatNull_iff.2 (h3 x hx)
    unfold floatNull at this
    simp only [decide_eq_true_eq] at this
    omega

/-- The contents of a rebuilt chunk. -/
theorem fillChunk_ok (hC : R.C.Ok) (hctx : Ctx R cs b e) (hj : ∀ k, R.C.junk k < 2 ^ 32) {lib : Lib} {fs : FS} (hl : LInv R.C R.S Z lib fs cs)
    (ht : Total R.C.vd R.bev R.gs R.ge (padStart b R.overlap) (padEnd e R.overlap)) {buf : Arr} (hbuf : ∀ w ∈ buf.buf, w < 2 ^ 32) :
    ∃ lib' fs' a, fillChunk R b e lib fs buf = .ok (lib', fs', a) ∧ LInv R.C R.S Z lib' fs' cs ∧ lib'.idx = lib.idx ∧ SameBut lib.idx.dir (chunksOf cs) fs fs' ∧
      a.shape = (subVec e b).map (· + 2 * R.overlap) ∧ a.buf.length = volume R.C.vd a.shape ∧ (∀ w ∈ a.buf, w < 2 ^ 32) ∧
      Inside R.C.vd R.gs R.ge (padStart b R.overlap) (padEnd e R.overlap) (srcVal R.C.vd cs) a.buf ∧
      ∀ i t, InBoxZ (padStart b R.overlap) (padEnd e R.overlap) i → ¬ InBoxZ (signed R.gs) (signed R.ge) i →
        Fixed R.C.vd R.bev R.gs R.ge (padStart b R.overlap) (padEnd e R.overlap) (srcVal R.C.vd cs) i t → Holds R.C.vd (padStart b R.overlap) (padEnd e R.overlap) a.buf i t := by
  have hU : U64 = 2 ^ 64 := rfl
  have h1 := hctx.bLen
  have h2 := hctx.eLen
  have h3 := hctx.gsLen
  have h4 := hctx.geLen
  have hov := hctx.ovl hC
  have hext := hctx.extents
  have hmid := hctx.mid
  obtain ⟨l1, l2, l3⟩ := hctx.lohi
  -- the padded box
  have hi32 : i32 (R.overlap : Int) = R.overlap := i32_eq (by omega) (by omega)
  have e1 : saddS (asInt b) (-(i32 R.overlap)) = .ok (padStart b R.overlap) := by
    rw [asInt_ok (fun d hd => by have := hctx.sub d (by omega); omega), hi32]
    have : (signed b).map (· + -(R.overlap : Int)) = padStart b R.overlap := by
      unfold signed padStart; rw [List.map_map]; apply List.map_congr_left; intro x _; simp only [Function.comp]; omega
    unfold saddS
    rw [this]
    apply checkI32_ok
    intro d hd
    have hd : d < b.length := by simpa [padStart] using hd
    have := hctx.sub d (by omega)
    rw [getD_padStart hd]; omega
  have e2 : saddS (asInt e) (i32 R.overlap) = .ok (padEnd e R.overlap) := by
    rw [asInt_ok (fun d hd => by have := hctx.sub d (by omega); omega), hi32]
    have : (signed e).map (· + (R.overlap : Int)) = padEnd e R.overlap := by
      unfold signed padEnd; rw [List.map_map]; apply List.map_congr_left; intro x _; rfl
    unfold saddS
    rw [this]
    apply checkI32_ok
    intro d hd
    have hd : d < e.length := by simpa [padEnd] using hd
    have := hctx.sub d (by omega)
    rw [getD_padEnd hd]; omega
  have hvs : vsub e b = subVec e b := by
    apply vsub_eq
    · intro d hd; exact Nat.le_of_lt (hctx.sub d (by omega)).2.1
    · omega
    · intro x hx
      obtain ⟨d, hd, rfl⟩ := List.getElem_of_mem hx
      have := hctx.sub d (by omega)
      rw [List.getD_eq_getElem?_getD (l := e), List.getElem?_eq_getElem hd, Option.getD_some] at this
      omega
  have hsh : (vsub e b).map (wadd · (2 * R.overlap % U64)) = extents (padStart b R.overlap) (padEnd e R.overlap) := by
    rw [hext, hvs, Nat.mod_eq_of_lt (by omega)]
    apply List.map_congr_left
    intro x hx
    obtain ⟨d, hd, rfl⟩ := List.getElem_of_mem hx
    have hd' : d < R.C.dims := by rw [length_subVec (by omega)] at hd; omega
    have := hctx.sub d hd'
    have hg := getD_subVec (a := e) (b := b) (by omega) d
    rw [List.getD_eq_getElem?_getD, List.getElem?_eq_getElem hd, Option.getD_some] at hg
    rw [hg, wadd_eq (by omega)]
  have hsd : ∀ d < R.C.dims, (extents (padStart b R.overlap) (padEnd e R.overlap)).getD d 0 = e.getD d 0 - b.getD d 0 + 2 * R.overlap := by
    intro d hd
    have := hctx.sub d hd
    rw [getD_extents (by simp [padStart, padEnd]; omega), getD_padStart (by omega), getD_padEnd (by omega)]
    omega
  have hslen : (extents (padStart b R.overlap) (padEnd e R.overlap)).length = R.C.dims := by simp [extents, padStart, padEnd, h1, h2]
  have hsmall : Small (extents (padStart b R.overlap) (padEnd e R.overlap)) := by
    intro x hx
    obtain ⟨d, hd, rfl⟩ := List.getElem_of_mem hx
    have hs := hsd d (by omega)
    have := hctx.sub d (by omega)
    rw [List.getD_eq_getElem?_getD, List.getElem?_eq_getElem hd, Option.getD_some] at hs
    rw [hs]; omega
  -- where the copying starts
  have hlo : asInt (vmaxU R.gs (padStart b R.overlap)) = signed (vmaxU R.gs (padStart b R.overlap)) := asInt_ok fun d hd => by
    have := l3 d (by omega)
    have := hctx.sub d (by omega)
    omega
  have hsl : (signed (vmaxU R.gs (padStart b R.overlap))).length = (padStart b R.overlap).length := by
    unfold signed; rw [List.length_map, l1]; simp [padStart, h1]
  obtain ⟨_, o, o1, o2⟩ := asSize_loc (cs := padStart b R.overlap) (i := signed (vmaxU R.gs (padStart b R.overlap))) (fun d hd => by
    have hd : d < R.C.dims := by rw [hsl] at hd; simpa [padStart, h1] using hd
    have := l3 d hd
    have := hctx.sub d hd
    rw [getD_signed, getD_padStart (by omega)]
    omega) hsl
  have hob : ∀ d < R.C.dims, ((asSize o).getD d 0 : Int) = ((vmaxU R.gs (padStart b R.overlap)).getD d 0 : Int) - ((b.getD d 0 : Int) - R.overlap) := by
    intro d hd
    have := l3 d hd
    have := hctx.sub d hd
    rw [o2, getD_loc hsl, getD_signed, getD_padStart (by omega)]
    omega
  have hol : (asSize o).length = R.C.dims := by rw [o2, length_loc hsl]; simp [padStart, h1]
  -- resize
  let rb : List Nat := (List.range (volume R.C.vd (extents (padStart b R.overlap) (padEnd e R.overlap)))).map fun k => buf.buf.getD k (R.C.junk k)
  have e3 : resize R.C.vd (buf.hdr R.C.vd) buf.buf (extents (padStart b R.overlap) (padEnd e R.overlap)) R.C.junk =
      .ok (mkHdr R.C.vd (extents (padStart b R.overlap) (padEnd e R.overlap)), rb) := rfl
  have hrl : rb.length = volume R.C.vd (extents (padStart b R.overlap) (padEnd e R.overlap)) := by simp [rb]
  have hrb : ∀ w ∈ rb, w < 2 ^ 32 := by
    intro w hw
    obtain ⟨k, _, rfl⟩ := List.mem_map.1 hw
    simp only [List.getD_eq_getElem?_getD]
    cases hk : buf.buf[k]? with
    | none => exact hj k
    | some x => exact hbuf x (List.mem_of_getElem? hk)
  -- the copy
  have hfo : FillOk R.C (extents (padStart b R.overlap) (padEnd e R.overlap)) ((extents (padStart b R.overlap) (padEnd e R.overlap)).map fun _ => 0)
      (mkHdr R.C.vd (extents (padStart b R.overlap) (padEnd e R.overlap))) (vmaxU R.gs (padStart b R.overlap)) (vminU R.ge (padEnd e R.overlap)) (asSize o) := by
    refine ⟨hsmall, .own, l1, l2, fun d hd => ?_, hslen, ?_⟩
    · have := l3 d hd
      have := hctx.sub d hd
      omega
    · refine ⟨by rw [hol]; exact hslen.symm, by rw [length_subVec (by omega), l2]; exact hslen.symm, fun d hd => ?_⟩
      have hd : d < R.C.dims := by rw [← hslen]; exact hd
      have := l3 d hd
      have := hctx.sub d hd
      have := hob d hd
      have := hsd d hd
      rw [getD_subVec (by omega)]
      show 0 < (vminU R.ge (padEnd e R.overlap)).getD d 0 - (vmaxU R.gs (padStart b R.overlap)).getD d 0 ∧ (asSize o).getD d 0 + ((vminU R.ge (padEnd e R.overlap)).getD d 0 - (vmaxU R.gs (padStart b R.overlap)).getD d 0) ≤
        (extents (padStart b R.overlap) (padEnd e R.overlap)).getD d 0
      constructor <;> omega
  obtain ⟨lib', fs', buf', f1, f2, f3, f4, f5, f6, f7⟩ := fillArray_ok hC hl hfo hrl
  -- the copied elements
  have hinside : Inside R.C.vd R.gs R.ge (padStart b R.overlap) (padEnd e R.overlap) (srcVal R.C.vd cs) buf' := by
    intro i hi1 hi2
    have hu := inBox_unsigned hi2
    obtain ⟨c, hc, hcb⟩ := hctx.filled _ hu
    have hil : i.length = R.C.dims := by rw [hi1.1]; simp [padStart, h1]
    have hlohi : InBox (vmaxU R.gs (padStart b R.overlap)) (vminU R.ge (padEnd e R.overlap)) (unsigned i) := by
      refine ⟨by simp [unsigned, hil, l1], by simp [unsigned, hil, l2], fun d hd => ?_⟩
      have hd : d < R.C.dims := by simpa [unsigned, hil] using hd
      have := l3 d hd
      have := hctx.sub d hd
      have a1 := hi1.2.2 d (by omega)
      have a2 := hi2.2.2 d (by omega)
      rw [getD_padStart (by omega), getD_padEnd (by omega)] at a1
      rw [getD_signed, getD_signed] at a2
      rw [getD_unsigned]
      omega
    obtain ⟨v, w, g1, g2, g3⟩ := f6 c hc (unsigned i) hlohi hcb
    have htg : target (vmaxU R.gs (padStart b R.overlap)) (asSize o) (unsigned i) = loc (padStart b R.overlap) i := by
      apply ext_getD
      · rw [length_target hfo (by simp [unsigned, hil]), length_loc hi1.1]; simp [padStart, h1]
      · intro d hd
        rw [length_target hfo (by simp [unsigned, hil])] at hd
        rw [getD_target hfo (by simp [unsigned, hil]), getD_loc hi1.1, getD_unsigned, getD_padStart (by omega)]
        have := l3 d hd
        have := hctx.sub d hd
        have := hob d hd
        have := hlohi.2.2 d (by simp [unsigned, hil]; exact hd)
        rw [getD_unsigned] at this
        have a1 := hi1.2.2 d (by omega)
        have a2 := hi2.2.2 d (by omega)
        rw [getD_padStart (by omega), getD_padEnd (by omega)] at a1
        rw [getD_signed, getD_signed] at a2
        omega
    rw [htg] at g2
    refine ⟨w, g2, ?_⟩
    rw [srcVal_eq hl.chunky hc hcb, g1]; exact g3
  have hbits : ∀ w ∈ buf', w < 2 ^ 32 := by
    refine bits_of_elems (a := ⟨extents (padStart b R.overlap) (padEnd e R.overlap), buf'⟩) hC.vd (f5.trans hrl) fun j hj => ?_
    by_cases hex : ∃ c, c ∈ cs ∧ ∃ i, InBox (vmaxU R.gs (padStart b R.overlap)) (vminU R.ge (padEnd e R.overlap)) i ∧ InBox c.1.start c.1.stop i ∧
        j = target (vmaxU R.gs (padStart b R.overlap)) (asSize o) i
    · obtain ⟨c, hc, i, i1, i2, i3⟩ := hex
      obtain ⟨v, w, g1, g2, g3⟩ := f6 c hc i i1 i2
      refine ⟨w, by rw [i3]; exact g2, VEq.bits g3 ?_⟩
      obtain ⟨v', k1, k2, k3⟩ := (hl.chunky.ok.arr _ _ _ (chunksOf_of_mem hl.chunky.ids hc)).get hC (valid_local (hl.chunky.placed c hc) i2)
      rw [g1] at k1; cases k1; exact k3
    · have : ND.read R.C.vd (mkHdr R.C.vd (extents (padStart b R.overlap) (padEnd e R.overlap))) buf' j =
          ND.read R.C.vd (mkHdr R.C.vd (extents (padStart b R.overlap) (padEnd e R.overlap))) rb j := by
        apply f7 j hj
        intro c hc i i1 i2 ej
        refine hex ⟨c, hc, i, i1, i2, ?_⟩
        have hvt := valid_target hfo i1
        rw [ej, addVec_zero]
        exact hvt.1
      obtain ⟨v, hv⟩ : ∃ v, ND.read R.C.vd (mkHdr R.C.vd (extents (padStart b R.overlap) (padEnd e R.overlap))) rb j = .ok v := ⟨_, read_own hrl hj⟩
      refine ⟨v, this.trans hv, fun x hx => hrb x ?_⟩
      exact get_subset (a := ⟨extents (padStart b R.overlap) (padEnd e R.overlap), rb⟩) hv x hx
  -- the padding
  have hpen := C46_penetrating_exact _ _ _ _ hctx.meets
  obtain ⟨d, d1, d2, d3, d4⟩ := pad_loop (vd := R.C.vd) hsmall hmid ⟨by simp [padStart]; omega, by simp [padStart]; omega⟩ ht (srcVal R.C.vd cs)
    (penetrating R.gs R.ge (padStart b R.overlap) (padEnd e R.overlap)) (fun i hi => (hpen i).1 hi) ⟨f5.trans hrl, hbits⟩ hinside
  refine ⟨lib', fs', ⟨extents (padStart b R.overlap) (padEnd e R.overlap), d⟩, ?_, f2, f3, f4, hext, d2.len, d2.bits, d3, fun i t i1 i2 i3 => d4 i t i1 i3 (.inl ((hpen i).2 ⟨i1, i2⟩))⟩
  unfold fillChunk
  simp only [e1, e2, Res.ok_bind, hsh, hlo, o1, e3, f1, d1]
  rfl

end ctx
end Verif.Rebuild
