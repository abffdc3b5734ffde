import Verif.Dist.LibShape
import Verif.Dist.LibRead
import Verif.Dist.LibMove
import Verif.Rebuild.Model
/-
The padding of one chunk.
-/
namespace Verif.Rebuild
open Verif Verif.ND Verif.Dist

/-- Position of the signed index `i` in a chunk that starts at `cs`. -/
def loc (cs i : List Int) : List Nat := List.zipWith (fun x c => (x - c).toNat) i cs

/-- Extents of the box. -/
def extents (cs ce : List Int) : List Nat := List.zipWith (fun c e => (e - c).toNat) cs ce

theorem getD_loc {cs i : List Int} (h : i.length = cs.length) (d : Nat) : (loc cs i).getD d 0 = (i.getD d 0 - cs.getD d 0).toNat := by
  by_cases hd : d < cs.length
  · unfold loc; rw [getD_zip (by omega) hd 0 0]
  · unfold loc
    simp only [List.getD_eq_getElem?_getD]
    rw [List.getElem?_eq_none (by simp; omega), List.getElem?_eq_none (by omega), List.getElem?_eq_none (by omega)]
    simp

theorem length_loc {cs i : List Int} (h : i.length = cs.length) : (loc cs i).length = cs.length := by simp [loc, h]

theorem getD_extents {cs ce : List Int} (h : ce.length = cs.length) (d : Nat) : (extents cs ce).getD d 0 = (ce.getD d 0 - cs.getD d 0).toNat := by
  by_cases hd : d < cs.length
  · unfold extents; rw [getD_zip hd (by omega) 0 0]
  · unfold extents
    simp only [List.getD_eq_getElem?_getD]
    rw [List.getElem?_eq_none (by simp; omega), List.getElem?_eq_none (by omega), List.getElem?_eq_none (by omega)]
    simp

theorem valid_loc {cs ce i : List Int} (h : InBoxZ cs ce i) : ValidInd (extents cs ce) (loc cs i) := by
  have hl : ce.length = cs.length := h.2.1.symm.trans h.1
  refine ⟨by rw [length_loc h.1]; simp [extents, hl], fun d hd => ?_⟩
  have : (extents cs ce).length = cs.length := by simp [extents, hl]
  rw [getD_loc h.1, getD_extents hl]
  have := h.2.2 d (by rw [h.1]; omega)
  omega

theorem loc_inj {cs ce i j : List Int} (h : InBoxZ cs ce i) (h' : InBoxZ cs ce j) (e : loc cs i = loc cs j) : i = j := by
  have hl : i.length = j.length := by rw [h.1, h'.1]
  apply List.ext_getElem hl
  intro d h1 h2
  have a := h.2.2 d h1
  have b := h'.2.2 d h2
  have c := congrArg (fun l => l.getD d 0) e
  simp only [getD_loc h.1, getD_loc h'.1] at c
  have e1 : i.getD d 0 = i[d] := by simp [List.getD_eq_getElem?_getD, h1]
  have e2 : j.getD d 0 = j[d] := by simp [List.getD_eq_getElem?_getD, h2]
  rw [e1] at a c
  rw [e2] at b c
  omega

/-- Every number of both boxes is an `int`, with room for differences. -/
def Mid (cs ce : List Int) : Prop := ce.length = cs.length ∧ ∀ d < cs.length, -2 ^ 31 ≤ cs.getD d 0 ∧ ce.getD d 0 - cs.getD d 0 ≤ 2 ^ 31 ∧ ce.getD d 0 ≤ 2 ^ 31

theorem checkI32_ok {v : List Int} (h : ∀ d < v.length, -2 ^ 31 ≤ v.getD d 0 ∧ v.getD d 0 < 2 ^ 31) : checkI32 v = .ok v := by
  unfold checkI32
  rw [if_pos]
  rw [List.all_eq_true]
  intro x hx
  obtain ⟨d, hd, rfl⟩ := List.getElem_of_mem hx
  have := h d hd
  rw [List.getD_eq_getElem?_getD, List.getElem?_eq_getElem hd, Option.getD_some] at this
  simpa using this

theorem asSize_loc {cs i : List Int} (h : ∀ d < i.length, 0 ≤ i.getD d 0 - cs.getD d 0 ∧ i.getD d 0 - cs.getD d 0 < 2 ^ 31) (hl : i.length = cs.length) :
    (ssub i cs).bind (fun k => .ok (asSize k)) = .ok (loc cs i) ∧ ∃ k, ssub i cs = .ok k ∧ asSize k = loc cs i := by
  have e : ssub i cs = .ok (List.zipWith (· - ·) i cs) := by
    apply checkI32_ok
    intro d hd
    rw [List.length_zipWith] at hd
    rw [getD_zip (by omega) (by omega) 0 0]
    have := h d (by omega)
    omega
  have e2 : asSize (List.zipWith (· - ·) i cs) = loc cs i := by
    unfold asSize loc
    rw [List.map_zipWith]
    apply List.ext_getElem
    · simp
    · intro d h1 h2
      simp only [List.getElem_zipWith]
      have hd : d < i.length := by simp at h1; omega
      have := h d hd
      rw [List.getD_eq_getElem?_getD, List.getD_eq_getElem?_getD, List.getElem?_eq_getElem hd, List.getElem?_eq_getElem (by omega)] at this
      simp only [Option.getD_some] at this
      unfold u64
      omega
  exact ⟨by rw [e]; simp only [Res.ok_bind]; rw [e2], _, e, e2⟩

theorem isBoundary_of {gs ge : List Nat} {i : List Int} (hl : gs.length = i.length ∧ ge.length = i.length) (h : ¬ InBoxZ (signed gs) (signed ge) i) : isBoundary gs ge i = true := by
  apply Classical.byContradiction
  intro hb
  apply h
  refine ⟨by simp [signed, hl.1], by simp [signed, hl.2], fun d hd => ?_⟩
  rw [getD_signed, getD_signed]
  have : ¬ ((decide (i.getD d 0 ≥ (ge.getD d 0 : Int)) || decide (i.getD d 0 < (gs.getD d 0 : Int))) = true) := fun hc =>
    hb (List.any_eq_true.2 ⟨d, List.mem_range.2 hd, hc⟩)
  simp only [Bool.or_eq_true, decide_eq_true_eq] at this
  omega

section pad
variable {vd : Nat} {bev : Bev} {gs ge : List Nat} {ecs ece : List Int}

/-- The buffer is a full one with numbers in it. -/
structure BufOk (vd : Nat) (ecs ece : List Int) (buf : List Nat) : Prop where
  len : buf.length = volume vd (extents ecs ece)
  bits : ∀ w ∈ buf, w < 2 ^ 32

/-- The element at the signed index `i` of the padded chunk is `v`. -/
def Holds (vd : Nat) (ecs ece : List Int) (buf : List Nat) (i : List Int) (v : List Nat) : Prop :=
  ∃ w, ND.read vd (mkHdr vd (extents ecs ece)) buf (loc ecs i) = .ok w ∧ VEq v w

/-- The elements of the padded chunk inside of the array are those of `f`. -/
def Inside (vd : Nat) (gs ge : List Nat) (ecs ece : List Int) (f : List Int → List Nat) (buf : List Nat) : Prop :=
  ∀ i, InBoxZ ecs ece i → InBoxZ (signed gs) (signed ge) i → Holds vd ecs ece buf i (f i)

/-- The evaluator can be called anywhere in the padding. -/
def Total (vd : Nat) (bev : Bev) (gs ge : List Nat) (ecs ece : List Int) : Prop :=
  ∀ buf, BufOk vd ecs ece buf → ∀ i, InBoxZ ecs ece i → ¬ InBoxZ (signed gs) (signed ge) i →
    ∃ v, bev (mkHdr vd (extents ecs ece)) buf ecs ece i = .ok v ∧ v.length = vd ∧ ∀ w ∈ v, w < 2 ^ 32

/-- Whatever is in the padding, the evaluator returns `t` at `i`. -/
def Fixed (vd : Nat) (bev : Bev) (gs ge : List Nat) (ecs ece : List Int) (f : List Int → List Nat) (i : List Int) (t : List Nat) : Prop :=
  ∀ buf, BufOk vd ecs ece buf → Inside vd gs ge ecs ece f buf → ∀ v, bev (mkHdr vd (extents ecs ece)) buf ecs ece i = .ok v → VEq t v

theorem write_ok (hs : Small (extents ecs ece)) {buf : List Nat} (hb : BufOk vd ecs ece buf) {i : List Int} (hi : InBoxZ ecs ece i) {v : List Nat} (hv : v.length = vd)
    (hvb : ∀ w ∈ v, w < 2 ^ 32) :
    ∃ buf', ND.write vd (mkHdr vd (extents ecs ece)) buf (loc ecs i) v = .ok buf' ∧ BufOk vd ecs ece buf' ∧ Holds vd ecs ece buf' i v ∧
      ∀ j t, InBoxZ ecs ece j → j ≠ i → Holds vd ecs ece buf j t → Holds vd ecs ece buf' j t := by
  have hvl := valid_loc hi
  obtain ⟨buf', e1, e2, e3, e4⟩ := C03_write_read vd (extents ecs ece) _ _ hs .own buf hb.len (loc ecs i) hvl v hv
  have hz : addVec ((extents ecs ece).map fun _ => 0) (loc ecs i) = loc ecs i := addVec_zero _ _ hvl.1
  refine ⟨buf', e1, ⟨e2.trans hb.len, fun w hw => ?_⟩, ⟨v, e3, .refl _⟩, fun j t hj hne ⟨w, h1, h2⟩ => ⟨w, ?_, h2⟩⟩
  · unfold ND.write at e1
    split at e1
    · unfold copyN at e1
      split at e1
      · cases e1
        rcases List.mem_append.1 hw with hw | hw
        · rcases List.mem_append.1 hw with hw | hw
          · exact hb.bits w (List.mem_of_mem_take hw)
          · exact hvb w (List.mem_of_mem_drop (List.mem_of_mem_take hw))
        · exact hb.bits w (List.mem_of_mem_drop hw)
      · cases e1
    · cases e1
  · rw [e4 (loc ecs j) (valid_loc hj) (fun e => hne (loc_inj hj hi (by rw [hz] at e; exact e)))]
    exact h1

theorem padOne_ok (hs : Small (extents ecs ece)) (hm : Mid ecs ece) (hl : gs.length = ecs.length ∧ ge.length = ecs.length) (ht : Total vd bev gs ge ecs ece) {buf : List Nat}
    (hb : BufOk vd ecs ece buf) {i : List Int} (hi : InBoxZ ecs ece i) (ho : ¬ InBoxZ (signed gs) (signed ge) i) :
    ∃ buf' v, padOne vd bev gs ge ecs ece (mkHdr vd (extents ecs ece)) i buf = .ok buf' ∧ bev (mkHdr vd (extents ecs ece)) buf ecs ece i = .ok v ∧ BufOk vd ecs ece buf' ∧
      Holds vd ecs ece buf' i v ∧ ∀ j t, InBoxZ ecs ece j → j ≠ i → Holds vd ecs ece buf j t → Holds vd ecs ece buf' j t := by
  obtain ⟨v, e1, e2, e3⟩ := ht buf hb i hi ho
  obtain ⟨buf', f1, f2, f3, f4⟩ := write_ok hs hb hi e2 e3
  obtain ⟨_, k, k1, k2⟩ := asSize_loc (cs := ecs) (i := i) (fun d hd => by
    have := hi.2.2 d hd
    have := hm.2 d (by rw [← hi.1]; exact hd)
    omega) hi.1
  refine ⟨buf', v, ?_, e1, f2, f3, f4⟩
  unfold padOne
  rw [isBoundary_of ⟨by rw [hi.1]; exact hl.1, by rw [hi.1]; exact hl.2⟩ ho]
  simp only [Res.assert, if_true, Res.ok_bind, k1, e1, k2, f1]

/-- Filling the padding. -/
theorem pad_loop (hs : Small (extents ecs ece)) (hm : Mid ecs ece) (hl : gs.length = ecs.length ∧ ge.length = ecs.length) (ht : Total vd bev gs ge ecs ece)
    (f : List Int → List Nat) :
    ∀ (L : List (List Int)) {buf : List Nat}, (∀ i ∈ L, InBoxZ ecs ece i ∧ ¬ InBoxZ (signed gs) (signed ge) i) → BufOk vd ecs ece buf → Inside vd gs ge ecs ece f buf →
    ∃ buf', runLoop (padOne vd bev gs ge ecs ece (mkHdr vd (extents ecs ece))) L buf = .ok buf' ∧ BufOk vd ecs ece buf' ∧ Inside vd gs ge ecs ece f buf' ∧
      ∀ i t, InBoxZ ecs ece i → Fixed vd bev gs ge ecs ece f i t → (i ∈ L ∨ Holds vd ecs ece buf i t) → Holds vd ecs ece buf' i t
  | [], buf, _, hb, hi => ⟨buf, rfl, hb, hi, fun i t _ _ h => by
      rcases h with h | h
      · cases h
      · exact h⟩
  | j :: L, buf, hL, hb, hin => by
      obtain ⟨hj1, hj2⟩ := hL j List.mem_cons_self
      obtain ⟨buf1, v, e1, e2, e3, e4, e5⟩ := padOne_ok hs hm hl ht hb hj1 hj2
      have hin1 : Inside vd gs ge ecs ece f buf1 := fun i h1 h2 => e5 i _ h1 (fun e => hj2 (e ▸ h2)) (hin i h1 h2)
      obtain ⟨buf2, g1, g2, g3, g4⟩ := pad_loop hs hm hl ht f L (fun i h => hL i (List.mem_cons_of_mem _ h)) e3 hin1
      refine ⟨buf2, by simp only [runLoop, e1, Res.ok_bind]; exact g1, g2, g3, fun i t h1 hfix h => ?_⟩
      by_cases hij : i = j
      · subst hij
        refine g4 i t h1 hfix (.inr ?_)
        obtain ⟨w, w1, w2⟩ := e4
        exact ⟨w, w1, (hfix buf hb hin v e2).trans w2⟩
      · refine g4 i t h1 hfix ?_
        rcases h with h | h
        · rcases List.mem_cons.1 h with h | h
          · exact absurd h hij
          · exact .inl h
        · exact .inr (e5 i t h1 hij h)

end pad
end Verif.Rebuild
