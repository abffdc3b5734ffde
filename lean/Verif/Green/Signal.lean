import Verif.Green.Request
/-
Model of the two classes with which a user computes signals, `SignalCalculator` (core/impl/SignalCalculator.hxx) and `C8SignalCalculator` (/repo/extern/corsika/impl/C8SignalCalculator.hxx).
-/
set_option linter.unusedSectionVars false
namespace Verif.Green
open Verif Verif.ND Verif.Dist Verif.Tree Verif.Bytes Verif.Ops

/-! ### The program -/

/-- The contents of uninitialised memory during one call of `apply_accumulate` (the interpolation buffers and the quadrature weights). -/
structure Scratch where
  junk : Nat → Nat → Nat → ℝ
  wjunk : Nat → ℝ

/-- One call for a track: its start and end, the charge, the times of the samples (`t_sig_start`, `t_sig_samp`, `num_samples`) and the weight. -/
structure TrackReq where
  p0 : XYZ ℝ
  p1 : XYZ ℝ
  t0 : ℝ
  t1 : ℝ
  charge : ℝ
  tsig : ℝ
  tsamp : ℝ
  n : Nat
  weight : ℝ

variable {σ : Type}

/-- SignalCalculator.hxx 12-15 `AccumulateSignal`, with the construction of its argument (Current.hxx 1-7) by the caller. `RaiseError` and the weight 1 are the defaults of GreensFunction.hh 76-77, the block
    sizes are those of GreensFunction.hxx 236-237. -/
noncomputable def accumulateSignal (L : Library σ ℝ) (G : GMeta ℝ) (grow : ℝ → ℝ) (q : TrackReq) (m : Scratch) (signal : List ℝ) (s : σ) : Res (σ × List ℝ) :=
  (mkSegment q.p0 q.p1 q.t0 q.t1 q.charge).bind fun seg => apply L G (keys (Real.sqrt 7)) grow m.junk m.wjunk 100 100 seg q.tsig q.tsamp q.n signal .raise 1 s

/-- C8SignalCalculator.hxx 23-32 `calculate`. (The arrays `track_start_xyzt`, `track_end_xyzt` are the pairs `p0`, `t0` and `p1`, `t1`.) -/
noncomputable def c8Calculate (L : Library σ ℝ) (G : GMeta ℝ) (grow : ℝ → ℝ) (q : TrackReq) (m : Scratch) (signal : List ℝ) (s : σ) : Res (σ × List ℝ) :=
  (mkSegment q.p0 q.p1 q.t0 q.t1 q.charge).bind fun seg => apply L G linear grow m.junk m.wjunk 100 100 seg q.tsig q.tsamp q.n signal .ignore q.weight s

/-- Calls one after the other, all of which accumulate into the same signal. -/
def runCalls (call : TrackReq → Scratch → List ℝ → σ → Res (σ × List ℝ)) : List (TrackReq × Scratch) → List ℝ → σ → Res (σ × List ℝ)
  | [], out, s => .ok (s, out)
  | q :: qs, out, s => (call q.1 q.2 out s).bind fun st => runCalls call qs st.2 st.1

/-! ### Specification -/

/-- The track of a request. -/
def TrackReq.seg (q : TrackReq) : Segment ℝ := ⟨q.p0, q.p1, q.t0, q.t1, q.charge⟩

open Classical in
/-- The signal of the charge on `seg` at the time of the sample `k`: minus the trapezoidal sum, over the integration points whose field has reached the antenna, of the interpolated field times the current.
    Points outside of the grid do not contribute. -/
noncomputable def lineSignal (G : GMeta ℝ) (kn : Kern ℝ) (A : Nat → Int → Int → Int → ℝ) (g : Grid) (seg : Segment ℝ) (tsig tsamp weight : ℝ) (k : Nat) : ℝ :=
  -(weight * ((seg.t1 - seg.t0) / intervals seg) * ∑ p ∈ Finset.range (intervals seg + 1),
    if 0 ≤ delay seg tsig tsamp p k ∧ g.Has (G.x (lineR seg p)) (G.y (lineZ seg p)) (G.t (delay seg tsig tsamp p k)) then trapez (intervals seg) p * response G kn A seg tsig tsamp p k else 0)

/-- What a request adds to the element `k` of the signal. -/
noncomputable def TrackReq.adds (q : TrackReq) (G : GMeta ℝ) (kn : Kern ℝ) (A : Nat → Int → Int → Int → ℝ) (g : Grid) (weight : ℝ) (k : Nat) : ℝ :=
  if k < q.n then lineSignal G kn A g q.seg q.tsig q.tsamp weight k else 0

/-- The request may be made. -/
def TrackReq.Ok (q : TrackReq) (G : GMeta ℝ) (kn : Kern ℝ) (A : Nat → Int → Int → Int → ℝ) (g : Grid) (oob : OOB) : Prop := SignalOk G kn A g q.seg q.tsig q.tsamp q.n oob

/-! ### Proof -/

variable {L : Library σ ℝ} {I : σ → Prop} {G : GMeta ℝ} {kn : Kern ℝ} {A : Nat → Int → Int → Int → ℝ} {g : Grid}

/-- One call. -/
theorem track_ok (hA : Answers L I G kn A g) {grow : ℝ → ℝ} (hg : grow 0 = 0) (q : TrackReq) (m : Scratch) (oob : OOB) (weight : ℝ) {out : List ℝ} (hn : q.n ≤ out.length) (hq : q.Ok G kn A g oob) {s : σ} (hs : I s) :
    ∃ s' out', ((mkSegment q.p0 q.p1 q.t0 q.t1 q.charge).bind fun seg => apply L G kn grow m.junk m.wjunk 100 100 seg q.tsig q.tsamp q.n out oob weight s) = .ok (s', out') ∧ I s' ∧ out'.length = out.length ∧
      ∀ k, out'.getD k 0 = out.getD k 0 + q.adds G kn A g weight k := by
  obtain ⟨s', out', e, e1, e2, e3⟩ := hA.signal s grow m.junk m.wjunk 100 100 q.seg q.tsig q.tsamp q.n out oob weight hs hg (by norm_num) (by norm_num) hn hq
  refine ⟨s', out', ?_, e1, e2, e3⟩
  have h1 : mkSegment q.p0 q.p1 q.t0 q.t1 q.charge = .ok q.seg := (segment_order _ _ _ _ _).1 hq.order
  rw [h1]
  exact e

/-- Several calls, each of which adds something. -/
theorem runCalls_ok {call : TrackReq → Scratch → List ℝ → σ → Res (σ × List ℝ)} {P : TrackReq → Prop} {adds : TrackReq → Nat → ℝ}
    (h : ∀ q m out s, P q → q.n ≤ out.length → I s → ∃ s' out', call q m out s = .ok (s', out') ∧ I s' ∧ out'.length = out.length ∧ ∀ k, out'.getD k 0 = out.getD k 0 + adds q k) :
    ∀ (qs : List (TrackReq × Scratch)) (out : List ℝ) (s : σ), (∀ q ∈ qs, P q.1 ∧ q.1.n ≤ out.length) → I s →
      ∃ s' out', runCalls call qs out s = .ok (s', out') ∧ I s' ∧ out'.length = out.length ∧ ∀ k, out'.getD k 0 = out.getD k 0 + (qs.map fun q => adds q.1 k).sum := by
  intro qs
  induction qs with
  | nil => intro out s _ hs; exact ⟨s, out, rfl, hs, rfl, fun k => by simp⟩
  | cons q qs ih =>
    intro out s hq hs
    obtain ⟨s1, o1, e1, i1, l1, v1⟩ := h q.1 q.2 out s (hq q (by simp)).1 (hq q (by simp)).2 hs
    obtain ⟨s2, o2, e2, i2, l2, v2⟩ := ih o1 s1 (fun r hr => by rw [l1]; exact hq r (by simp [hr])) i1
    refine ⟨s2, o2, ?_, i2, l2.trans l1, fun k => ?_⟩
    · unfold runCalls
      rw [e1]
      exact e2
    · rw [v2, v1, List.map_cons, List.sum_cons]; ring

/-! ### C70: superposition -/

/-- **C70** for `SignalCalculator`: after any sequence of tracks, the signal is what it was before plus the sum of the signals of the tracks. -/
theorem C70_superposition (hA : Answers L I G (keys (Real.sqrt 7)) A g) {grow : ℝ → ℝ} (hg : grow 0 = 0) (qs : List (TrackReq × Scratch)) (out : List ℝ) (s : σ) (hs : I s)
    (hq : ∀ q ∈ qs, q.1.Ok G (keys (Real.sqrt 7)) A g .raise ∧ q.1.n ≤ out.length) :
    ∃ s' out', runCalls (accumulateSignal L G grow) qs out s = .ok (s', out') ∧ I s' ∧ out'.length = out.length ∧
      ∀ k, out'.getD k 0 = out.getD k 0 + (qs.map fun q => q.1.adds G (keys (Real.sqrt 7)) A g 1 k).sum :=
  runCalls_ok (adds := fun q k => q.adds G (keys (Real.sqrt 7)) A g 1 k) (P := fun q => q.Ok G (keys (Real.sqrt 7)) A g .raise) (fun q m _ _ h1 h2 h3 => track_ok hA hg q m .raise 1 h2 h1 h3) qs out s hq hs

/-- **C70** for `C8SignalCalculator`. -/
theorem C70_superposition_c8 (hA : Answers L I G linear A g) {grow : ℝ → ℝ} (hg : grow 0 = 0) (qs : List (TrackReq × Scratch)) (out : List ℝ) (s : σ) (hs : I s)
    (hq : ∀ q ∈ qs, q.1.Ok G linear A g .ignore ∧ q.1.n ≤ out.length) :
    ∃ s' out', runCalls (c8Calculate L G grow) qs out s = .ok (s', out') ∧ I s' ∧ out'.length = out.length ∧
      ∀ k, out'.getD k 0 = out.getD k 0 + (qs.map fun q => q.1.adds G linear A g q.1.weight k).sum :=
  runCalls_ok (adds := fun q k => q.adds G linear A g q.weight k) (P := fun q => q.Ok G linear A g .ignore) (fun q m _ _ h1 h2 h3 => track_ok hA hg q m .ignore q.weight h2 h1 h3) qs out s hq hs

/-- The elements of a list determine it. -/
theorem list_ext {a b : List ℝ} (hl : a.length = b.length) (h : ∀ k, a.getD k 0 = b.getD k 0) : a = b := by
  refine List.ext_getElem hl fun i h1 h2 => ?_
  have := h i
  simpa [List.getD, h1, h2] using this

/-- **C70**: the order of the tracks does not matter, nor which Green's function object is used (its cache depth, what it was used for before), nor the contents of uninitialised memory. -/
theorem C70_order {σ' : Type} {L' : Library σ' ℝ} {I' : σ' → Prop} (hA : Answers L I G (keys (Real.sqrt 7)) A g) (hA' : Answers L' I' G (keys (Real.sqrt 7)) A g) {grow grow' : ℝ → ℝ} (hg : grow 0 = 0)
    (hg' : grow' 0 = 0) (qs qs' : List (TrackReq × Scratch)) (hp : (qs.map Prod.fst).Perm (qs'.map Prod.fst)) (out : List ℝ) (s : σ) (hs : I s) (s' : σ') (hs' : I' s')
    (hq : ∀ q ∈ qs, q.1.Ok G (keys (Real.sqrt 7)) A g .raise ∧ q.1.n ≤ out.length) :
    ∃ r r' res, runCalls (accumulateSignal L G grow) qs out s = .ok (r, res) ∧ runCalls (accumulateSignal L' G grow') qs' out s' = .ok (r', res) := by
  obtain ⟨r, o, e, _, l, v⟩ := C70_superposition hA hg qs out s hs hq
  obtain ⟨r', o', e', _, l', v'⟩ := C70_superposition hA' hg' qs' out s' hs' fun q hm => by
    have : q.1 ∈ qs.map Prod.fst := hp.symm.subset (List.mem_map_of_mem hm)
    obtain ⟨q1, h1, h2⟩ := List.mem_map.1 this
    rw [← h2]; exact hq q1 h1
  refine ⟨r, r', o, e, ?_⟩
  rw [e', list_ext (l'.trans l.symm) fun k => ?_]
  rw [v, v']
  congr 1
  have := (hp.map fun q : TrackReq => q.adds G (keys (Real.sqrt 7)) A g 1 k).sum_eq
  rw [List.map_map, List.map_map] at this
  exact this.symm

/-- **C70**: the same for `C8SignalCalculator`. -/
theorem C70_order_c8 {σ' : Type} {L' : Library σ' ℝ} {I' : σ' → Prop} (hA : Answers L I G linear A g) (hA' : Answers L' I' G linear A g) {grow grow' : ℝ → ℝ} (hg : grow 0 = 0)
    (hg' : grow' 0 = 0) (qs qs' : List (TrackReq × Scratch)) (hp : (qs.map Prod.fst).Perm (qs'.map Prod.fst)) (out : List ℝ) (s : σ) (hs : I s) (s' : σ') (hs' : I' s')
    (hq : ∀ q ∈ qs, q.1.Ok G linear A g .ignore ∧ q.1.n ≤ out.length) :
    ∃ r r' res, runCalls (c8Calculate L G grow) qs out s = .ok (r, res) ∧ runCalls (c8Calculate L' G grow') qs' out s' = .ok (r', res) := by
  obtain ⟨r, o, e, _, l, v⟩ := C70_superposition_c8 hA hg qs out s hs hq
  obtain ⟨r', o', e', _, l', v'⟩ := C70_superposition_c8 hA' hg' qs' out s' hs' fun q hm => by
    have : q.1 ∈ qs.map Prod.fst := hp.symm.subset (List.mem_map_of_mem hm)
    obtain ⟨q1, h1, h2⟩ := List.mem_map.1 this
    rw [← h2]; exact hq q1 h1
  refine ⟨r, r', o, e, ?_⟩
  rw [e', list_ext (l'.trans l.symm) fun k => ?_]
  rw [v, v']
  congr 1
  have := (hp.map fun q : TrackReq => q.adds G linear A g q.weight k).sum_eq
  rw [List.map_map, List.map_map] at this
  exact this.symm

/-- **C70**: a track that does not begin before it ends is refused by both classes. -/
theorem C70_refused (L : Library σ ℝ) (G : GMeta ℝ) (grow : ℝ → ℝ) (q : TrackReq) (m : Scratch) (out : List ℝ) (s : σ) (h : q.t1 ≤ q.t0) :
    accumulateSignal L G grow q m out s = .throw ∧ c8Calculate L G grow q m out s = .throw := by
  unfold accumulateSignal c8Calculate
  rw [(segment_order _ _ _ _ _).2 h]
  exact ⟨rfl, rfl⟩

/-- **C70**: nothing arrives before the track begins. -/
theorem C70_causal (G : GMeta ℝ) (kn : Kern ℝ) (A : Nat → Int → Int → Int → ℝ) (g : Grid) (seg : Segment ℝ) (tsig tsamp weight : ℝ) (k : Nat) (hseg : seg.t0 < seg.t1) (h : tsig + k * tsamp < seg.t0) :
    lineSignal G kn A g seg tsig tsamp weight k = 0 := by
  unfold lineSignal
  rw [Finset.sum_eq_zero, mul_zero, neg_zero]
  intro p _
  rw [if_neg]
  intro hc
  have h1 := hc.1
  have : 0 ≤ (p : ℝ) * ((seg.t1 - seg.t0) / intervals seg) := mul_nonneg (Nat.cast_nonneg _) (div_nonneg (by linarith) (Nat.cast_nonneg _))
  unfold delay lineTime at h1
  linarith

end Verif.Green
