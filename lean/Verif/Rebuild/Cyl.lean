import Verif.Rebuild.Loop
/-
The boundary evaluator for cylindrical symmetry on a padded chunk.
-/
namespace Verif.Rebuild
open Verif Verif.ND Verif.Dist Verif.Tree Verif.NullSup

/-- The index mirrored at the axis `r = 0`. -/
def mirror (i : List Int) : List Int := i.set 0 (-i.getD 0 0)

section cyl
variable {R : RCfg} {cs : List (Meta × Arr)} {b e : List Nat}

/-- The mirrored index is in the padded chunk. -/
theorem mirror_in (hC : R.C.Ok) (h : Ctx R cs b e) {i : List Int} (hi : InBoxZ (padStart b R.overlap) (padEnd e R.overlap) i) (hneg : i.getD 0 0 < 0) :
    InBoxZ (padStart b R.overlap) (padEnd e R.overlap) (mirror i) := by
  have h1 := h.bLen
  have h2 := h.eLen
  have hil : i.length = R.C.dims := by rw [hi.1]; simp [padStart, h1]
  have hd0 := hC.dims
  refine ⟨by unfold mirror; rw [List.length_set]; exact hi.1, by unfold mirror; rw [List.length_set]; exact hi.2.1, fun d hd => ?_⟩
  have hd : d < R.C.dims := by unfold mirror at hd; rw [List.length_set] at hd; omega
  have a1 := hi.2.2 d (by omega)
  have hs := h.sub d hd
  unfold mirror
  rw [getD_setZ (by omega)]
  split
  · rename_i hz
    subst hz
    rw [getD_padStart (by omega), getD_padEnd (by omega)] at a1 ⊢
    omega
  · exact a1

theorem mirror_read (hC : R.C.Ok) (h : Ctx R cs b e) {i : List Int} (hi : InBoxZ (padStart b R.overlap) (padEnd e R.overlap) i) (hneg : i.getD 0 0 < 0) (buf : List Nat) :
    cylindrical R.C.vd (mkHdr R.C.vd (extents (padStart b R.overlap) (padEnd e R.overlap))) buf (padStart b R.overlap) (padEnd e R.overlap) i =
      ND.read R.C.vd (mkHdr R.C.vd (extents (padStart b R.overlap) (padEnd e R.overlap))) buf (loc (padStart b R.overlap) (mirror i)) := by
  have hm := mirror_in hC h hi hneg
  have hmid := h.mid
  have h1 := h.bLen
  have hml : (mirror i).length = R.C.dims := by rw [hm.1]; simp [padStart, h1]
  have c1 : checkI32 (mirror i) = .ok (mirror i) := by
    apply checkI32_ok
    intro d hd
    have q1 := hm.2.2 d hd
    have h2 := h.eLen
    have := h.sub d (by omega)
    have hov := h.ovl hC
    rw [getD_padStart (by omega), getD_padEnd (by omega)] at q1
    omega
  obtain ⟨_, k, k1, k2⟩ := asSize_loc (cs := padStart b R.overlap) (i := mirror i) (fun d hd => by
    have := hm.2.2 d hd
    have := hmid.2 d (by rw [← hm.1]; exact hd)
    omega) hm.1
  unfold cylindrical
  rw [if_pos hneg, show i.set 0 (-i.getD 0 0) = mirror i from rfl, c1]
  simp only [Res.ok_bind, k1, k2]

theorem cyl_total (hC : R.C.Ok) (h : Ctx R cs b e) : Total R.C.vd (cylindrical R.C.vd) R.gs R.ge (padStart b R.overlap) (padEnd e R.overlap) := by
  intro buf hb i hi _
  by_cases hneg : i.getD 0 0 < 0
  · have hv := valid_loc (mirror_in hC h hi hneg)
    rw [mirror_read hC h hi hneg]
    refine ⟨_, read_own hb.len hv, ?_, fun w hw => hb.bits w ?_⟩
    · have hble := blk_le (vd := R.C.vd) hv
      rw [← hb.len] at hble
      rw [List.length_take, List.length_drop]; omega
    · exact get_subset (a := ⟨_, buf⟩) (read_own hb.len hv) w hw
  · refine ⟨List.replicate R.C.vd 0, by unfold cylindrical; rw [if_neg hneg], by simp, fun w hw => ?_⟩
    rw [List.eq_of_mem_replicate hw]; omega

/-- Outside of the array at a non-negative radius: zero. -/
theorem cyl_zero {i : List Int} (h : 0 ≤ i.getD 0 0) (f : List Int → List Nat) :
    Fixed R.C.vd (cylindrical R.C.vd) R.gs R.ge (padStart b R.overlap) (padEnd e R.overlap) f i (List.replicate R.C.vd 0) := by
  intro buf _ _ v hv
  unfold cylindrical at hv
  rw [if_neg (by omega)] at hv
  cases hv
  exact .refl _

/-- Outside of the array at a negative radius, next to the axis: the value at the mirrored index. -/
theorem cyl_mirror (hC : R.C.Ok) (h : Ctx R cs b e) {i : List Int} (hi : InBoxZ (padStart b R.overlap) (padEnd e R.overlap) i) (hneg : i.getD 0 0 < 0)
    (hin : InBoxZ (signed R.gs) (signed R.ge) (mirror i)) (f : List Int → List Nat) :
    Fixed R.C.vd (cylindrical R.C.vd) R.gs R.ge (padStart b R.overlap) (padEnd e R.overlap) f i (f (mirror i)) := by
  intro buf _ hins v hv
  rw [mirror_read hC h hi hneg] at hv
  obtain ⟨w, w1, w2⟩ := hins _ (mirror_in hC h hi hneg) hin
  rw [hv] at w1; cases w1
  exact w2

end cyl
end Verif.Rebuild
