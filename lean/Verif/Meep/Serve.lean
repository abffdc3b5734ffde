import Verif.Meep.Finish
import Verif.Green.Request
import Mathlib.Tactic.Linarith
/-
The Green's function of a calculation with MEEP, when it is loaded, serves the samples of the simulated field.
-/
set_option linter.unusedSectionVars false
namespace Verif.Meep
open Verif Verif.ND Verif.Dist Verif.Tree Verif.Ops Verif.Rebuild Verif.Green Verif.NullSup Verif.Bytes

variable {K : Type} [Field K] [LinearOrder K] [IsStrictOrderedRing K] [FloorRing K]

/-! ### Specification -/

/-- The place `(z, r)` lies in the padded storage domain, and `n` is one of the `N` samples in time. -/
def InDom (N : Nat) (p : Padded) (z r n : Int) : Prop :=
  ((p.start.getD 0 0 : Int) ≤ z ∧ z < p.start.getD 0 0 + p.shape.getD 0 0) ∧ ((p.start.getD 1 0 : Int) ≤ r ∧ r < p.start.getD 1 0 + p.shape.getD 1 0) ∧ 0 ≤ n ∧ n < N

instance (N : Nat) (p : Padded) (z r n : Int) : Decidable (InDom N p z r n) := by unfold InDom; infer_instance

/-- The sampled field, component `c`, at the indices `i` (radial), `j` (vertical), `k` (time): the simulated field `F` at the step `k` and the place `r = |r0 + ds * i|`, `z = z0 + ds * j` (that is, mirrored at the
    axis `r = 0`), and zero where the field was not stored. `val` gives the number that belongs to 32 bits. -/
def meepField (val : Nat → K) (F : SimField) (ds N z0 r0 : Nat) (p : Padded) (c : Nat) (i j k : Int) : K :=
  if InDom N p (z0 + ds * j) |(r0 + ds * i : Int)| k then val ((F k.toNat [(z0 + ds * j : Int).toNat, |(r0 + ds * i : Int)|.toNat]).getD c 0) else 0

/-- The indices for which the chunks have the values of `meepField`: those of non-negative radius, and those whose mirror image is stored. -/
def KnownAt (ds N z0 r0 : Nat) (p : Padded) (i j k : Int) : Prop := 0 ≤ (r0 + ds * i : Int) ∨ InDom N p (z0 + ds * j) (-(r0 + ds * i : Int)) k

/-! ### Proof -/

variable {C : Cfg} {S : Sorter} {Z : SlabSize}

theorem inStored_of {N : Nat} {p : Padded} (hl : p.start.length = 2 ∧ p.shape.length = 2) {z r n : Int} (h : InDom N p z r n) : InStored N p n.toNat [z.toNat, r.toNat] := by
  obtain ⟨⟨a1, a2⟩, ⟨b1, b2⟩, c1, c2⟩ := h
  refine ⟨by omega, by simp [hl], by rw [addVec_length (by omega)]; simp [hl], fun d hd => ?_⟩
  rw [getD_addVec (by omega)]
  match d, hd with
  | 0, _ => simp only [List.getD_cons_zero]; omega
  | 1, _ => simp only [List.getD_cons_succ, List.getD_cons_zero]; omega

theorem inDom_of {N : Nat} {p : Padded} (hl : p.start.length = 2 ∧ p.shape.length = 2) {n z r : Nat} (h : InStored N p n [z, r]) : InDom N p z r n := by
  obtain ⟨h1, h2, h3, h4⟩ := h
  have a := h4 0 (by simp)
  have b := h4 1 (by simp)
  rw [getD_addVec (by omega)] at a b
  simp only [List.getD_cons_zero, List.getD_cons_succ] at a b
  unfold InDom
  omega

theorem val_eq' {val : Nat → K} (hval : ∀ x, FloatIsZero x → val x = 0) {v w : List Nat} (h : VEq v w) {c : Nat} (hc : c < w.length) : val (w.getD c 0) = val (v.getD c 0) := by
  rcases h with rfl | h
  · rfl
  · exact (val_eq hval (.inr h) (by rw [h.1]; exact hc)).symm

/-- An element of a chunk, in terms of the sampled field. -/
theorem padField_val {val : Nat → K} (hval : ∀ x, FloatIsZero x → val x = 0) {F : SimField} {ds N z0 r0 : Nat} {p : Padded} (hl : p.start.length = 2 ∧ p.shape.length = 2) {i j k : Int} {v : List Nat}
    (hv : v.length = 2) (h : PadField 2 ds N [z0, r0] p F [i, j, k] v) (hQ : KnownAt ds N z0 r0 p i j k) {c : Nat} (hc : c < 2) :
    val (v.getD c 0) = meepField val F ds N z0 r0 p c i j k := by
  have place : IsPlace [z0, r0] ds [i, j, k] k [(z0 + ds * j : Int), (r0 + ds * i : Int)] := by
    refine ⟨rfl, rfl, fun d hd => ?_⟩
    match d, hd with
    | 0, _ => rfl
    | 1, _ => rfl
  have only : ∀ {n : Int} {x : List Int}, IsPlace [z0, r0] ds [i, j, k] n x → n = k ∧ x = [(z0 + ds * j : Int), (r0 + ds * i : Int)] := fun {n x} hx => by
    have h1 := hx.len
    have h2 := hx.time
    have h3 := hx.space 0 (by simp)
    have h4 := hx.space 1 (by simp)
    match x, h1 with
    | [a, b], _ => exact ⟨h2.symm, by rw [show a = _ from h3, show b = _ from h4]; rfl⟩
  unfold meepField
  by_cases hd : InDom N p (z0 + ds * j) |(r0 + ds * i : Int)| k
  · rw [if_pos hd]
    have hst := inStored_of hl hd
    have hz : 0 ≤ (z0 + ds * j : Int) := by have := hd.1; omega
    have hk : 0 ≤ k := by have := hd.2.2; omega
    by_cases hr : 0 ≤ (r0 + ds * i : Int)
    · rw [abs_of_nonneg hr] at hst ⊢
      refine val_eq' hval (h.inside _ _ hst ?_) (by rw [hv]; exact hc)
      have e : signed [(z0 + ds * j : Int).toNat, (r0 + ds * i : Int).toNat] = [(z0 + ds * j : Int), (r0 + ds * i : Int)] := by
        simp only [signed, List.map_cons, List.map_nil, Int.toNat_of_nonneg hz, Int.toNat_of_nonneg hr]
      rw [e, Int.toNat_of_nonneg hk]
      exact place
    · rw [abs_of_neg (by omega)] at hst ⊢
      have hr' : 0 ≤ -(r0 + ds * i : Int) := by omega
      refine val_eq' hval (h.mirrored k _ place ?_ _ _ hst (Int.toNat_of_nonneg hk).symm ?_) (by rw [hv]; exact hc)
      · show (r0 + ds * i : Int) < 0
        omega
      · simp only [signed, List.map_cons, List.map_nil, Int.toNat_of_nonneg hz, Int.toNat_of_nonneg hr']
        rfl
  · rw [if_neg hd]
    have hr : 0 ≤ (r0 + ds * i : Int) := by
      rcases hQ with h | h
      · exact h
      · by_contra hn
        exact hd (by rw [abs_of_neg (by omega)]; exact h)
    rw [abs_of_nonneg hr] at hd
    have := h.outside (fun n x hs hp => by
      obtain ⟨e1, e2⟩ := only hp
      have hxl : x.length = 2 := by have := congrArg List.length e2; simpa [signed] using this
      match x, hxl with
      | [a, b], _ =>
        have e3 : ((a : Nat) : Int) = (z0 + ds * j : Int) := (List.cons.inj e2).1
        have e4 : ((b : Nat) : Int) = (r0 + ds * i : Int) := (List.cons.inj (List.cons.inj e2).2).1
        have := inDom_of hl hs
        rw [e3, e4, e1] at this
        exact hd this) (fun n x hp => by
      obtain ⟨_, e2⟩ := only hp
      rw [e2]
      exact hr)
    rw [← val_eq hval this hc]
    have : c = 0 ∨ c = 1 := by omega
    rcases this with rfl | rfl <;> exact hval _ (.inl rfl)


theorem get_len {a : Arr} {vd : Nat} {i v : List Nat} (h : a.get vd i = .ok v) : v.length = vd := by
  unfold Arr.get ND.read at h
  split at h
  · split at h
    · cases h; rw [List.length_take, List.length_drop]; omega
    · cases h
  · cases h

/-- The chunks of a finished array. -/
theorem holds_parts (hC : C.Ok) (hd : C.dims = 3) (hvd : C.vd = 2) {val : Nat → K} (hval : ∀ x, FloatIsZero x → val x = 0) {F : SimField} {ds N z0 r0 : Nat} {p : Padded}
    (hl : p.start.length = 2 ∧ p.shape.length = 2) {fs : FS} {dir : Nat} {cs : List (Meta × Arr)} {ps : List Piece} (hs : Saved C fs dir cs) (hn : cs.length < 2 ^ 64) (hr : Rep C cs ps) {G req : List Nat} {o : Nat}
    (hcov : ∀ i, InBox (List.replicate C.dims 0) G i ↔ Covered ps i) (h : Holds C S fs dir G req o (PadField C.vd ds N [z0, r0] p F)) (Z : SlabSize) :
    (∀ q ∈ cs, BoxOK (List.replicate 3 0) G req q.1.start q.1.stop ∧ q.1.overlap = o) ∧ PartsOf val cs (meepField val F ds N z0 r0 p) (KnownAt ds N z0 r0 p) := by
  obtain ⟨lib, l1, _, _, l2⟩ := open_ok (S := S) (Z := Z) hC hs.chunky hn hs.index hs.disk []
  obtain ⟨lib', l3, l4⟩ := h []
  rw [l1] at l3
  cases l3
  have key : ∀ q ∈ cs, Placed C q.1 q.2 ∧ ∃ a, AEq C.vd q.2 a ∧ BoxOK (List.replicate C.dims 0) G req q.1.start q.1.stop ∧ q.1.overlap = o ∧
      ((q.1.ctype = .specified ∧ a.shape = (subVec q.1.stop q.1.start).map (· + 2 * o) ∧
        ∀ j, InBoxZ (padStart q.1.start o) (padEnd q.1.stop o) j → ∃ v, a.get C.vd (loc (padStart q.1.start o) j) = .ok v ∧ PadField C.vd ds N [z0, r0] p F j v) ∨
       (q.1.ctype = .all_null ∧ ∀ j, InBoxZ (padStart q.1.start o) (padEnd q.1.stop o) j → PadField C.vd ds N [z0, r0] p F j (List.replicate C.vd 0))) := by
    intro q hq
    have hpl := hs.chunky.placed q hq
    obtain ⟨lib1, fs1, a, e1, e2⟩ := chunkAt_ok hC l2 hq hpl.first_in
    obtain ⟨pc, hpc, hrep⟩ := hr.leftMem hq
    have hb : InBox (List.replicate C.dims 0) G q.1.start := (hcov _).2 ⟨pc, hpc, by rw [← hrep.start, ← hrep.stop]; exact hpl.first_in⟩
    obtain ⟨lib2, fs2, m, a', k1, _, k3, k4, k5⟩ := l4 _ hb
    rw [e1] at k1
    cases k1
    exact ⟨hpl, a, e2, k3, k4, k5⟩
  have box : ∀ {m : Meta} {i j k : Int}, m.start.length = 3 → m.stop.length = 3 → m.overlap = o → InPadded m i j k → InBoxZ (padStart m.start o) (padEnd m.stop o) [i, j, k] ∧
      loc (padStart m.start o) [i, j, k] = [(i - m.start.getD 0 0 + m.overlap).toNat, (j - m.start.getD 1 0 + m.overlap).toNat, (k - m.start.getD 2 0 + m.overlap).toNat] := by
    intro m i j k s1 s2 ho hin
    obtain ⟨x0, x1, x2⟩ := hin
    rw [ho] at *
    have lp : (padStart m.start o).length = 3 := by simp [padStart, s1]
    have le : (padEnd m.stop o).length = 3 := by simp [padEnd, s2]
    refine ⟨⟨by rw [lp]; rfl, by rw [le]; rfl, fun d hdd => ?_⟩, ?_⟩
    · replace hdd : d < 3 := hdd
      rw [getD_padStart (by omega), getD_padEnd (by omega)]
      match d, hdd with
      | 0, _ => simp only [List.getD_cons_zero]; omega
      | 1, _ => simp only [List.getD_cons_zero, List.getD_cons_succ]; omega
      | 2, _ => simp only [List.getD_cons_zero, List.getD_cons_succ]; omega
    · apply ext_getD
      · rw [length_loc (by rw [lp]; rfl), lp]; rfl
      · intro d hdd
        rw [length_loc (by rw [lp]; rfl), lp] at hdd
        rw [getD_loc (by rw [lp]; rfl), getD_padStart (by omega)]
        match d, hdd with
        | 0, _ => simp only [List.getD_cons_zero]; congr 1; omega
        | 1, _ => simp only [List.getD_cons_zero, List.getD_cons_succ]; congr 1; omega
        | 2, _ => simp only [List.getD_cons_zero, List.getD_cons_succ]; congr 1; omega
  rw [hvd] at key
  refine ⟨fun q hq => ?_, ⟨fun q hq hsp c i j k hc hin hQ => ?_, fun q hq hz c i j k hc hin hQ => ?_⟩⟩
  · obtain ⟨_, a, _, k3, k4, _⟩ := key q hq
    rw [hd] at k3
    exact ⟨k3, k4⟩
  · obtain ⟨hpl, a, ha, k3, k4, k5⟩ := key q hq
    have s1 : q.1.start.length = 3 := by rw [hpl.startLen, hd]
    have s2 : q.1.stop.length = 3 := by rw [hpl.stopLen, hd]
    obtain ⟨b1, b2⟩ := box s1 s2 k4 hin
    rcases k5 with ⟨_, _, k6⟩ | ⟨k6, _⟩
    · obtain ⟨w, w1, w2⟩ := k6 _ b1
      rw [b2] at w1
      have hvalid : ValidInd q.2.shape [(i - q.1.start.getD 0 0 + q.1.overlap).toNat, (j - q.1.start.getD 1 0 + q.1.overlap).toNat, (k - q.1.start.getD 2 0 + q.1.overlap).toNat] := by
        refine ⟨by rw [hpl.arrLen, hd]; rfl, fun d hdd => ?_⟩
        rw [hpl.arrLen, hd] at hdd
        rw [hpl.getD_arr (by omega), padOf_spec hsp]
        have := hpl.getD_stop d
        obtain ⟨q0, q1, q2⟩ := hin
        match d, hdd with
        | 0, _ => simp only [List.getD_cons_zero]; omega
        | 1, _ => simp only [List.getD_cons_zero, List.getD_cons_succ]; omega
        | 2, _ => simp only [List.getD_cons_zero, List.getD_cons_succ]; omega
      obtain ⟨v, w', u1, u2, u3⟩ := ha.2 _ hvalid
      rw [w1] at u2
      cases u2
      refine ⟨v, u1, ?_⟩
      rw [val_eq hval u3 (by rw [get_len u1]; exact hc)]
      exact padField_val hval hl (get_len w1) w2 hQ hc
    · rw [hsp] at k6; cases k6
  · obtain ⟨hpl, a, ha, k3, k4, k5⟩ := key q hq
    have s1 : q.1.start.length = 3 := by rw [hpl.startLen, hd]
    have s2 : q.1.stop.length = 3 := by rw [hpl.stopLen, hd]
    obtain ⟨b1, b2⟩ := box s1 s2 k4 hin
    rcases k5 with ⟨k6, _⟩ | ⟨_, k6⟩
    · rw [hz] at k6; cases k6
    · rw [← padField_val hval hl rfl (k6 _ b1) hQ hc]
      have : c = 0 ∨ c = 1 := by omega
      rcases this with rfl | rfl <;> exact hval _ (.inl rfl)

end Verif.Meep
