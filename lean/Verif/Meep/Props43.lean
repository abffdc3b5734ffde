import Verif.Meep.StatsProof
import Mathlib.Algebra.Order.Field.Rat
/-
C43: the running maximum of the field magnitude and the limit on the dynamic range.
-/
set_option linter.unusedSectionVars false
namespace Verif.Meep
open Verif Verif.ND Verif.Ops

variable {K : Type} [Field K] [LinearOrder K] [IsStrictOrderedRing K] {Key : Type} [DecidableEq Key]

/-! ### Specification -/

/-- A sample of magnitude `a` survives: the maximum is above the threshold and the sample is not smaller than the maximum divided by the dynamic range. -/
def Survives (M a absMin dr : K) : Prop := absMin < M ∧ M / dr ≤ a

/-- `M` is the largest magnitude seen at the very position `i` (or zero). -/
structure IsLocalMax (ops : List (Op Key K)) (key : Key) (i : List Nat) (M : K) : Prop where
  nonneg : 0 ≤ M
  upper : ∀ s v x, Op.update key s v ∈ ops → ValidInd s i → read 1 (mkHdr 1 s) v i = .ok [x] → x ≤ M
  attained : M = 0 ∨ ∃ s v, Op.update key s v ∈ ops ∧ ValidInd s i ∧ read 1 (mkHdr 1 s) v i = .ok [M]

/-! ### Proof -/

theorem truncLoop {vd : Nat} {P : List Nat} (hP : Small P) (keep : List Nat → Prop) [DecidablePred keep] (f : List Nat → List K → Res (List K)) :
    ∀ (L : List (List Nat)) (b : List K), b.length = volume vd P → (∀ j ∈ L, ValidInd P j) → L.Nodup →
      (∀ j ∈ L, ∀ b, f j b = if keep j then .ok b else write vd (mkHdr vd P) b j (List.replicate vd 0)) →
      ∃ out, runLoop f L b = .ok out ∧ out.length = b.length ∧ ∀ j, ValidInd P j →
        (j ∈ L → ¬ keep j → read vd (mkHdr vd P) out j = .ok (List.replicate vd 0)) ∧
        ((j ∉ L ∨ keep j) → read vd (mkHdr vd P) out j = read vd (mkHdr vd P) b j)
  | [], b, _, _, _, _ => ⟨b, rfl, rfl, fun j _ => ⟨by simp, fun _ => rfl⟩⟩
  | j :: L, b, hb, hL, hn, hf => by
      rw [List.nodup_cons] at hn
      have h1 : ∃ b1, f j b = .ok b1 ∧ b1.length = b.length ∧ (¬ keep j → read vd (mkHdr vd P) b1 j = .ok (List.replicate vd 0)) ∧
          (∀ i, ValidInd P i → i ≠ j ∨ keep j → read vd (mkHdr vd P) b1 i = read vd (mkHdr vd P) b i) := by
        rw [hf j (by simp)]
        by_cases hk : keep j
        · rw [if_pos hk]
          exact ⟨b, rfl, rfl, fun h => absurd hk h, fun _ _ _ => rfl⟩
        · rw [if_neg hk]
          have hj := hL j (by simp)
          obtain ⟨b1, w1, w2, w3, w4⟩ := C03_write_read vd P _ (mkHdr vd P) hP ViewOf.own b hb j hj (List.replicate vd 0) (by simp)
          refine ⟨b1, w1, w2, fun _ => w3, fun i hi hne => w4 i hi ?_⟩
          rw [addVec_zero _ _ hj.1]
          exact hne.resolve_right hk
      obtain ⟨b1, e1, l1, z1, k1⟩ := h1
      obtain ⟨out, e2, l2, h2⟩ := truncLoop hP keep f L b1 (by omega) (fun x hx => hL x (by simp [hx])) hn.2 (fun x hx => hf x (by simp [hx]))
      refine ⟨out, by simp only [runLoop, e1, Res.ok_bind, e2], by omega, fun i hi => ⟨?_, ?_⟩⟩
      · intro hm hk
        rcases List.mem_cons.1 hm with rfl | hm
        · rw [(h2 i hi).2 (Or.inl hn.1)]
          exact z1 hk
        · exact (h2 i hi).1 hm hk
      · intro h
        have h3 : i ∉ L ∨ keep i := by
          rcases h with h | h
          · left; intro hm; exact h (by simp [hm])
          · exact Or.inr h
        rw [(h2 i hi).2 h3]
        apply k1 i hi
        by_cases he : i = j
        · subst he
          exact Or.inr (h.resolve_left (by simp))
        · exact Or.inl he

theorem sameCell_one {i j : List Nat} : SameCell 1 i j ↔ i = j := by
  rw [sameCell_iff]
  simp

open Classical in
/-- `limit_field_dynamic_range` for a tracker that satisfies the invariant. -/
theorem limit_core {m : Nat} (hm : 0 < m) {ops : List (Op Key K)} (hl : Legal m ops) {t : Tracker Key K} (hi : TInv m ops t) {key : Key} {s : List Nat} (ha : Added ops key s)
    (vd T : Nat) (hT : T < 2 ^ 64) (fld absval : List K) (hf : fld.length = volume vd (T :: s)) (hab : absval.length = volume 1 s) (absMin dr : K) :
    ∃ out, limitRange vd t key (mkHdr vd (T :: s)) fld (mkHdr 1 s) absval absMin dr = .ok out ∧ out.length = fld.length ∧
      ∀ k i, k < T → ValidInd s i → ∃ M a, IsRunningMax m ops key i M ∧ read 1 (mkHdr 1 s) absval i = .ok [a] ∧
        (Survives M a absMin dr → read vd (mkHdr vd (T :: s)) out (k :: i) = read vd (mkHdr vd (T :: s)) fld (k :: i)) ∧
        (¬ Survives M a absMin dr → read vd (mkHdr vd (T :: s)) out (k :: i) = .ok (List.replicate vd 0)) := by
  have hs : ∀ x ∈ s, x + m < 2 ^ 64 := hl.fits key s ha.mem
  have hM : ∀ i, ValidInd s i → ∃ M, t.maxLocal key i = .ok M ∧ IsRunningMax m ops key i M := fun i hv => maxLocal_ok hm hl hi ha hv
  have hP : Small (T :: s) := by
    intro x hx
    rcases List.mem_cons.1 hx with rfl | hx
    · exact hT
    · have := hs x hx; omega
  obtain ⟨calls, c1, c2, c3, c4⟩ := C09_index_loop vd (T :: s) _ (mkHdr vd (T :: s)) hP ViewOf.own fld hf ((T :: s).map fun _ => 0) (T :: s) (by simp) (by simp)
    ⟨rfl, fun _ _ => Nat.le_refl _⟩
  let keep : List Nat → Prop := fun j => ∃ M, t.maxLocal key (j.drop 1) = .ok M ∧ Survives M (at1 s absval (j.drop 1)) absMin dr
  have hnd : (calls.map Prod.fst).Nodup := by
    refine c2.imp (fun {a b} h => ?_)
    intro he
    subst he
    exact lexLt_irrefl a h
  have hval : ∀ j ∈ calls.map Prod.fst, ValidInd (T :: s) j := by
    intro j hj
    have := (c3 j).1 hj
    rwa [inBox_zero_iff] at this
  obtain ⟨out, o1, o2, o3⟩ := truncLoop hP keep (truncator vd t key (mkHdr 1 s) absval absMin dr (mkHdr vd (T :: s))) (calls.map Prod.fst) fld hf hval hnd
    (by
      intro j hj b
      obtain ⟨k, i, rfl, hk, hv⟩ := validInd_cons_left.1 (hval j hj)
      obtain ⟨M, m1, m2⟩ := hM i hv
      unfold truncator
      simp only [List.drop_succ_cons, List.drop_zero]
      rw [m1, Res.ok_bind, read_one hab hv]
      have hkeep : keep (k :: i) ↔ Survives M (at1 s absval i) absMin dr := by
        simp only [keep, List.drop_succ_cons, List.drop_zero, m1, Res.ok.injEq]
        constructor
        · rintro ⟨M', rfl, h⟩; exact h
        · intro h; exact ⟨M, rfl, h⟩
      by_cases h1 : M > absMin
      · rw [if_pos h1, Res.ok_bind]
        simp only
        by_cases h2 : at1 s absval i < M / dr
        · rw [if_pos h2, if_neg]
          rw [hkeep]
          rintro ⟨_, h⟩
          exact absurd h2 (not_lt.2 h)
        · rw [if_neg h2, if_pos]
          rw [hkeep]
          exact ⟨h1, not_lt.1 h2⟩
      · rw [if_neg h1, if_neg]
        rw [hkeep]
        rintro ⟨h, _⟩
        exact h1 h)
  refine ⟨out, ?_, o2, ?_⟩
  · unfold limitRange indexLoopAll
    rw [show (mkHdr vd (T :: s)).shape = T :: s from rfl, c1, Res.ok_bind, o1]
  · intro k i hk hv
    obtain ⟨M, m1, m2⟩ := hM i hv
    have hj : ValidInd (T :: s) (k :: i) := validInd_cons.2 ⟨hk, hv⟩
    have hmem : (k :: i) ∈ calls.map Prod.fst := by
      rw [c3]; rw [inBox_zero_iff]; exact hj
    refine ⟨M, at1 s absval i, m2, read_one hab hv, ?_, ?_⟩
    · intro h
      exact (o3 _ hj).2 (Or.inr ⟨M, m1, h⟩)
    · intro h
      refine (o3 _ hj).1 hmem ?_
      rintro ⟨M', h1, h2⟩
      simp only [List.drop_succ_cons, List.drop_zero] at h1 h2
      rw [m1] at h1
      cases h1
      exact h h2

/-- **C43** (what the program does for every block size `m` of the tracker). After any legal history of `AddRegion` and `UpdateStatisticsForRegion` calls, over
    any number of regions, `GetMaxLocal` is the maximum of zero and of all magnitudes seen so far, in all slices of the region, at the positions of the same
    `m × … × m` block, and `limit_field_dynamic_range` leaves a sample untouched if it survives with respect to this maximum and sets it to zero otherwise.
    The missing part is `C43_not_per_location`: the maximum is taken over a block (the program uses `m = 2`), not at the location of the sample. -/
theorem C43_limit_partial (m : Nat) (hm : 0 < m) (ops : List (Op Key K)) (hl : Legal m ops) :
    ∃ t, (Tracker.new Key K m).run ops = .ok t ∧
      ∀ key s, Added ops key s →
        (∀ i, ValidInd s i → ∃ M, t.maxLocal key i = .ok M ∧ IsRunningMax m ops key i M) ∧
        ∀ (vd T : Nat) (_ : T < 2 ^ 64) (fld absval : List K) (_ : fld.length = volume vd (T :: s)) (_ : absval.length = volume 1 s) (absMin dr : K),
          ∃ out, limitRange vd t key (mkHdr vd (T :: s)) fld (mkHdr 1 s) absval absMin dr = .ok out ∧ out.length = fld.length ∧
            ∀ k i, k < T → ValidInd s i → ∃ M a, IsRunningMax m ops key i M ∧ read 1 (mkHdr 1 s) absval i = .ok [a] ∧
              (Survives M a absMin dr → read vd (mkHdr vd (T :: s)) out (k :: i) = read vd (mkHdr vd (T :: s)) fld (k :: i)) ∧
              (¬ Survives M a absMin dr → read vd (mkHdr vd (T :: s)) out (k :: i) = .ok (List.replicate vd 0)) := by
  obtain ⟨t, e1, hi⟩ := run_ok hm ops [] (Tracker.new Key K m) (by simpa using hl) (new_inv m)
  rw [List.nil_append] at hi
  refine ⟨t, e1, fun key s ha => ?_⟩
  exact ⟨fun i hv => maxLocal_ok hm hl hi ha hv, fun vd T hT fld absval hf hab absMin dr => limit_core hm hl hi ha vd T hT fld absval hf hab absMin dr⟩

/-- The tracker with block size 1 has the property as it is stated: the maximum is the one at the location. -/
theorem C43_running_max_block_one (ops : List (Op Key K)) (key : Key) (i : List Nat) (M : K) : IsRunningMax 1 ops key i M ↔ IsLocalMax ops key i M := by
  constructor
  · rintro ⟨h1, h2, h3⟩
    refine ⟨h1, fun s v x hu hv hr => h2 x ⟨s, v, i, hu, hv, sameCell_one.2 rfl, hr⟩, ?_⟩
    rcases h3 with h3 | ⟨s, v, j, hu, hv, hc, hr⟩
    · exact Or.inl h3
    · rw [sameCell_one] at hc; subst hc
      exact Or.inr ⟨s, v, hu, hv, hr⟩
  · rintro ⟨h1, h2, h3⟩
    refine ⟨h1, ?_, ?_⟩
    · rintro x ⟨s, v, j, hu, hv, hc, hr⟩
      rw [sameCell_one] at hc; subst hc
      exact h2 s v x hu hv hr
    · rcases h3 with h3 | ⟨s, v, hu, hv, hr⟩
      · exact Or.inl h3
      · exact Or.inr ⟨s, v, i, hu, hv, sameCell_one.2 rfl, hr⟩

/-- For every block size: the block maximum is at least the maximum at the location, so a sample that is kept is within the dynamic range of the maximum at its
    own location. -/
theorem C43_kept_within_range (m : Nat) (ops : List (Op Key K)) (key : Key) (i : List Nat) (M L a absMin dr : K) (hdr : 0 < dr)
    (hM : IsRunningMax m ops key i M) (hL : IsLocalMax ops key i L) (h : Survives M a absMin dr) : L / dr ≤ a := by
  have hle : L ≤ M := by
    rcases hL.attained with h0 | ⟨s, v, hu, hv, hr⟩
    · rw [h0]; exact hM.nonneg
    · exact hM.upper L ⟨s, v, i, hu, hv, ⟨rfl, fun _ _ => rfl⟩, hr⟩
  exact le_trans (div_le_div_of_nonneg_right hle (le_of_lt hdr)) h.2

/-! ### The maximum is not taken at the location -/

namespace Ex43

/-- One region of 1 × 3 positions and two slices with the magnitudes (100, 0, 3) and (2, 1, 5). -/
def ops : List (Op Nat Rat) := [.add 7 [1, 3], .update 7 [1, 3] [100, 0, 3], .update 7 [1, 3] [2, 1, 5]]

theorem legal : Legal 2 ops := by
  constructor
  · intro key s h x hx
    simp [ops] at h
    obtain ⟨rfl, rfl⟩ := h
    simp at hx
    omega
  · intro pre post key s v h
    unfold ops at h
    match pre, h with
    | [], h => simp at h
    | [a], h =>
      simp at h
      obtain ⟨rfl, ⟨rfl, rfl, rfl⟩, _⟩ := h
      exact ⟨⟨[], [], rfl, by simp⟩, rfl⟩
    | [a, b], h =>
      simp at h
      obtain ⟨rfl, rfl, ⟨rfl, rfl, rfl⟩, _⟩ := h
      exact ⟨⟨[], [.update 7 [1, 3] [100, 0, 3]], rfl, by simp⟩, rfl⟩
    | a :: b :: c :: d, h => simp at h

theorem added : Added ops 7 [1, 3] := ⟨[], [.update 7 [1, 3] [100, 0, 3], .update 7 [1, 3] [2, 1, 5]], rfl, by simp⟩

/-- The field of the second slice, one component, processed with threshold 0.1 and dynamic range 10. -/
def out : Res (List Rat) := ((Tracker.new Nat Rat 2).run ops).bind fun t => limitRange 1 t 7 (mkHdr 1 [1, 1, 3]) [2, 1, 5] (mkHdr 1 [1, 3]) [2, 1, 5] (1/10) 10

theorem out_eq : out = .ok [0, 0, 5] := by decide +kernel

end Ex43

/-- **C43, the negation for the block size used by the program** (`m = 2`, line 500): there is a history with the current slice in it such that the sample at a
    position is the largest field ever seen there, it is above the threshold, and nevertheless it is set to zero (because a neighbour is larger). -/
theorem C43_not_per_location :
    ∃ (ops : List (Op Nat Rat)) (t : Tracker Nat Rat) (fld absval out : List Rat) (absMin dr M a : Rat),
      Legal 2 ops ∧ Added ops 7 [1, 3] ∧ Op.update 7 [1, 3] absval ∈ ops ∧ (Tracker.new Nat Rat 2).run ops = .ok t ∧
      limitRange 1 t 7 (mkHdr 1 [1, 1, 3]) fld (mkHdr 1 [1, 3]) absval absMin dr = .ok out ∧
      IsLocalMax ops 7 [0, 1] M ∧ read 1 (mkHdr 1 [1, 3]) absval [0, 1] = .ok [a] ∧ 0 < absMin ∧ 1 < dr ∧ a = M ∧ Survives M a absMin dr ∧
      read 1 (mkHdr 1 [1, 1, 3]) fld [0, 0, 1] = .ok [a] ∧ read 1 (mkHdr 1 [1, 1, 3]) out [0, 0, 1] = .ok [0] := by
  have ho := Ex43.out_eq
  unfold Ex43.out at ho
  obtain ⟨t, h1, h2⟩ := Res.bind_eq_ok.1 ho
  refine ⟨Ex43.ops, t, [2, 1, 5], [2, 1, 5], [0, 0, 5], 1/10, 10, 1, 1, Ex43.legal, Ex43.added, by simp [Ex43.ops], h1, h2, ⟨by decide +kernel, ?_, ?_⟩,
    by decide +kernel, by decide +kernel, by decide +kernel, rfl, ⟨by decide +kernel, by decide +kernel⟩, by decide +kernel, by decide +kernel⟩
  · intro s v x hu _ hr
    simp [Ex43.ops] at hu
    rcases hu with ⟨rfl, rfl⟩ | ⟨rfl, rfl⟩
    · have : read 1 (mkHdr 1 [1, 3]) ([100, 0, 3] : List Rat) [0, 1] = .ok [0] := by decide +kernel
      rw [this] at hr
      simp at hr
      rw [← hr]; decide +kernel
    · have : read 1 (mkHdr 1 [1, 3]) ([2, 1, 5] : List Rat) [0, 1] = .ok [1] := by decide +kernel
      rw [this] at hr
      simp at hr
      exact le_of_eq hr.symm
  · exact Or.inr ⟨[1, 3], [2, 1, 5], by simp [Ex43.ops], ⟨rfl, by decide⟩, by decide +kernel⟩

/-- The hypotheses of `C43_limit_partial` are met by a history with two slices, and the result is not trivial: the sample 5 survives, 2 and 1 are set to zero. -/
example : ∃ t, (Tracker.new Nat Rat 2).run Ex43.ops = .ok t ∧ Legal 2 Ex43.ops ∧ Added Ex43.ops 7 [1, 3] ∧
    limitRange 1 t 7 (mkHdr 1 [1, 1, 3]) [2, 1, 5] (mkHdr 1 [1, 3]) [2, 1, 5] (1/10) 10 = .ok [0, 0, 5] := by
  obtain ⟨t, h1, h2⟩ := Res.bind_eq_ok.1 Ex43.out_eq
  exact ⟨t, h1, Ex43.legal, Ex43.added, h2⟩

end Verif.Meep
