import Verif.Green.Track
import Verif.Green.Props38
import Verif.Green.Props40
import Mathlib.Algebra.BigOperators.Intervals
/-
The loops of `apply_accumulate`.
-/
namespace Verif.Green
open Verif Verif.ND Verif.Dist Verif.Tree Verif.NullSup

set_option linter.unusedSectionVars false

variable {K : Type} [Field K] [LinearOrder K] [IsStrictOrderedRing K] [FloorRing K] {σ : Type}

/-- The time of output sample `k`. -/
def Setup.time (S : Setup σ K) (k : Nat) : K := S.tsig + k * S.tsamp

/-- The position of integration point `p` in units of the grid of the Green's function, and the time between integration point `p` and sample `k`. -/
def xOf (S : Setup σ K) (T : Track K) (p : Nat) : K := S.G.x (coordCyl S.sqrt (T.pos p)).1
def yOf (S : Setup σ K) (T : Track K) (p : Nat) : K := S.G.y (coordCyl S.sqrt (T.pos p)).2
def tOf (S : Setup σ K) (T : Track K) (p k : Nat) : K := S.G.t (S.time k - T.time p)

/-- There is a chunk for integration point `p` and sample `k`. -/
def Covered (S : Setup σ K) (T : Track K) (ms : List Meta) (p k : Nat) : Prop :=
  ∃ m ∈ ms, InBox m.start m.stop (cell (xOf S T p) (yOf S T p) (tOf S T p k))

/-- Sample `k` is not before integration point `p`. -/
def Causal (S : Setup σ K) (T : Track K) (p k : Nat) : Prop := T.time p ≤ S.time k

/-- The conditions on the request. All of them concern only pairs of an integration point and a sample that is not before it. -/
structure TrackOk (S : Setup σ K) (T : Track K) (ms : List Meta) (Q : Int → Int → Int → Prop := fun _ _ _ => True) : Prop where
  step : 0 ≤ T.step
  samp : 0 < S.tsamp
  dt : 0 < S.G.dt
  num : T.num < 2 ^ 62
  many : S.n < 2 ^ 62
  blocks : 0 < S.maxI ∧ S.maxI < 2 ^ 62 ∧ 0 < S.maxS ∧ S.maxS < 2 ^ 62
  int : ∀ p < T.num, (-2 ^ 31 : Int) ≤ ⌈(T.time p - S.tsig) / S.tsamp⌉ ∧ ⌈(T.time p - S.tsig) / S.tsamp⌉ < 2 ^ 31
  x : ∀ p < T.num, 0 ≤ xOf S T p ∧ xOf S T p < 2 ^ 62
  y : ∀ p < T.num, 0 ≤ yOf S T p ∧ yOf S T p < 2 ^ 62
  t : ∀ p k, p < T.num → k < S.n → Causal S T p k → 0 ≤ tOf S T p k ∧ tOf S T p k < 2 ^ 62
  fits : ∀ m ∈ ms, ((m.stop.getD 2 0 : Nat) : K) / (S.tsamp / S.G.dt) < 2 ^ 62
  padded : ∀ m ∈ ms, S.kn.support ≤ m.overlap
  edge : ∀ m ∈ ms, m.ctype = .specified → m.overlap = S.kn.support → ∀ p k, p < T.num → k < S.n → Causal S T p k → tOf S T p k = ((m.stop.getD 2 0 : Nat) : K) →
    ¬ (⌊xOf S T p⌋ + 1 = (m.stop.getD 0 0 : Int) ∧ ⌊yOf S T p⌋ + 1 = (m.stop.getD 1 0 : Int))
  zeros : ∀ p j k m m', p < T.num → j < k → k < S.n → Causal S T p j → m ∈ ms → m' ∈ ms → InBox m.start m.stop (cell (xOf S T p) (yOf S T p) (tOf S T p j)) →
    InBox m'.start m'.stop (cell (xOf S T p) (yOf S T p) (tOf S T p k)) → m.ctype = .all_null → m'.ctype = .all_null
  cov : S.oob = .raise → ∀ p k, p < T.num → k < S.n → Causal S T p k → Covered S T ms p k
  /-- if samples outside are to be ignored: the domain has no gap in time, and no sample lies exactly on its end -/
  down : ∀ p j k, p < T.num → j < k → k < S.n → Causal S T p j → Covered S T ms p k → Covered S T ms p j
  open' : ∀ p k, p < T.num → k < S.n → Causal S T p k → OnChunk ms (xOf S T p) (yOf S T p) (tOf S T p k) → Covered S T ms p k
  /-- all points used for the interpolation satisfy `Q` -/
  region : ∀ p k, p < T.num → k < S.n → Causal S T p k → StencilIn S.kn Q (xOf S T p) (yOf S T p) (tOf S T p k)

/-- The inner product of the Green's function with the source for integration point `p` and sample `k`. -/
def pairValue (S : Setup σ K) (T : Track K) (A : Nat → Int → Int → Int → K) (p k : Nat) : K :=
  interpAt S.kn (A 0) (xOf S T p) (yOf S T p) (tOf S T p k) * (fieldCyl S.sqrt T.src (T.pos p)).getD 0 0 +
  interpAt S.kn (A 1) (xOf S T p) (yOf S T p) (tOf S T p k) * (fieldCyl S.sqrt T.src (T.pos p)).getD 1 0

section
variable {S : Setup σ K} {T : Track K} {ms : List Meta} {I : σ → Prop} {A : Nat → Int → Int → Int → K} {Q : Int → Int → Int → Prop}

theorem tOf_add (hdt : S.G.dt ≠ 0) (p b i : Nat) : tOf S T p (b + i) = tOf S T p b + i * (S.tsamp / S.G.dt) := by
  unfold tOf GMeta.t Setup.time
  push_cast
  field_simp
  ring

theorem Causal.mono (h : TrackOk S T ms Q) {p b k : Nat} (hc : Causal S T p b) (hk : b ≤ k) : Causal S T p k := by
  unfold Causal Setup.time at *
  have : (b : K) * S.tsamp ≤ k * S.tsamp := mul_le_mul_of_nonneg_right (by exact_mod_cast hk) h.samp.le
  linarith

theorem Causal.anti (h : TrackOk S T ms Q) {p p' k : Nat} (hc : Causal S T p' k) (hp : p ≤ p') : Causal S T p k := by
  unfold Causal Track.time at *
  have : (p : K) * T.step ≤ p' * T.step := mul_le_mul_of_nonneg_right (by exact_mod_cast hp) h.step
  linarith

theorem causalInd_ok (h : TrackOk S T ms Q) {p : Nat} (hp : p < T.num) : ∃ c, causalInd (T.time p) S.tsig S.tsamp = .ok c ∧ ∀ k, c ≤ k ↔ Causal S T p k := by
  have hi := h.int p hp
  refine ⟨(max 0 ⌈(T.time p - S.tsig) / S.tsamp⌉).toNat, ?_, fun k => ?_⟩
  · unfold causalInd toInt32
    rw [if_neg h.samp.ne', if_pos hi]; rfl
  · unfold Causal Setup.time
    have e : (max 0 ⌈(T.time p - S.tsig) / S.tsamp⌉).toNat ≤ k ↔ ⌈(T.time p - S.tsig) / S.tsamp⌉ ≤ (k : Int) := by omega
    rw [e, Int.ceil_le, div_le_iff₀ h.samp]
    push_cast
    constructor <;> intro h <;> linarith

open Classical in
/-- One call of `accumulate_inner_product`. -/
theorem call_ok (hL : Serves S.L I ms A Q) (hk : S.kn.Usable) (hg : S.grow 0 = 0) (h : TrackOk S T ms Q) {p b b1 : Nat} (hp : p < T.num) (hb : b < b1) (hb1 : b1 ≤ S.n)
    (hc : Causal S T p b) (junk : Nat → K) (wt : K) {s : σ} {out : List K} (hs : I s) (hout : S.n ≤ out.length) :
    ∃ s' out', accumulate S.L S.G S.kn S.grow junk (coordCyl S.sqrt (T.pos p)).1 (coordCyl S.sqrt (T.pos p)).2 (b * S.tsamp + S.tsig - T.time p) S.tsamp (b1 - b)
        (fieldCyl S.sqrt T.src (T.pos p)) out b wt S.oob s = .ok (s', out') ∧ I s' ∧ out'.length = out.length ∧
      ∀ q, out'.getD q 0 = out.getD q 0 + if b ≤ q ∧ q < b1 ∧ Covered S T ms p q then pairValue S T A p q * wt else 0 := by
  have hdt := h.dt
  have hts : b * S.tsamp + S.tsig - T.time p = S.time b - T.time p := by unfold Setup.time; ring
  rw [hts]
  have e0 : S.G.t (S.time b - T.time p) = tOf S T p b := rfl
  have eX : S.G.x (coordCyl S.sqrt (T.pos p)).1 = xOf S T p := rfl
  have eY : S.G.y (coordCyl S.sqrt (T.pos p)).2 = yOf S T p := rfl
  have eT : ∀ i : Nat, S.G.t (S.time b - T.time p + i * S.tsamp) = tOf S T p (b + i) := by
    intro i; unfold tOf Setup.time; congr 1; push_cast; ring
  have eI : ∀ i : Nat, tOf S T p b + (i : K) * (S.tsamp / S.G.dt) = tOf S T p (b + i) := fun i => (tOf_add hdt.ne' p b i).symm
  have hca : ∀ i : Nat, Causal S T p (b + i) := fun i => hc.mono h (by omega)
  obtain ⟨s', out', e, g1, g2, g3, g4, g5, g6, g7⟩ := accumulate_ok hL hk hg S.G hdt junk (coordCyl S.sqrt (T.pos p)).1 (coordCyl S.sqrt (T.pos p)).2 (S.time b - T.time p) S.tsamp (b1 - b)
    (fieldCyl S.sqrt T.src (T.pos p)) wt S.oob
    (by
      rw [eX, eY, e0]
      refine ⟨(h.x p hp).1, (h.y p hp).1, (h.t p b hp (by omega) hc).1, div_pos h.samp hdt, (h.x p hp).2, (h.y p hp).2, ?_, ?_, h.fits, h.padded, ?_⟩
      · intro k hk'
        rw [eI]; exact (h.t p _ hp (by omega) (hca k)).2
      · have := h.many; omega
      · intro m hm h1 h2 k hk' he
        rw [eI] at he
        exact h.edge m hm h1 h2 p _ hp (by omega) (hca k) he)
    (by
      rw [eX, eY, e0]
      intro j k m m' hjk hkn hm hm' h1 h2 h3
      rw [eI] at h1 h2
      exact h.zeros p _ _ m m' hp (by omega) (by omega) (hca j) hm hm' h1 h2 h3)
    (fun k hk' => by rw [eX, eY, eT]; exact h.region p _ hp (by omega) (hca k))
    out b (by omega)
    (by
      intro ho k hk'
      rw [eX, eY, eT]
      exact h.cov ho p _ hp (by omega) (hca k)) s hs
  refine ⟨s', out', g1, g2, g3, fun q => ?_⟩
  rw [g6 q]
  congr 1
  by_cases h1 : b ≤ q ∧ q < b + e
  · have hq : b + (q - b) = q := by omega
    have hcov : Covered S T ms p q := by
      apply h.open' p q hp (by omega) (hc.mono h h1.1)
      have := g7 (q - b) (by omega)
      rw [eX, eY, eT, hq] at this
      exact this
    rw [if_pos h1, if_pos ⟨h1.1, by omega, hcov⟩]
    unfold pairValue greenAt
    rw [eX, eY, eT, hq]
  · rw [if_neg h1]
    by_cases h2 : b ≤ q ∧ q < b1 ∧ Covered S T ms p q
    · exfalso
      have hlt : e < b1 - b := by omega
      have hno := g5 hlt
      rw [eX, eY, eT] at hno
      have hcov : Covered S T ms p (b + e) := by
        rcases Nat.lt_or_eq_of_le (show b + e ≤ q by omega) with h3 | h3
        · exact h.down p _ q hp h3 (by omega) (hca e) h2.2.2
        · rw [h3]; exact h2.2.2
      obtain ⟨m, hm, hin⟩ := hcov
      exact hno m hm hin
    · rw [if_neg h2]

open Classical in
/-- What integration point `p` contributes to sample `q`. -/
noncomputable def term (S : Setup σ K) (T : Track K) (ms : List Meta) (A : Nat → Int → Int → Int → K) (wt : K) (p q : Nat) : K :=
  if Causal S T p q ∧ Covered S T ms p q then pairValue S T A p q * (wt * T.step * S.weight * (-1)) else 0

open Classical in
/-- The loop over the integration points of a block, for the samples of a block. -/
theorem ptLoop_ok (hL : Serves S.L I ms A Q) (hk : S.kn.Usable) (hg : S.grow 0 = 0) (h : TrackOk S T ms Q) (w : List K) {start b0 b1 : Nat} (hb0 : b0 < b1) (hb1 : b1 ≤ S.n) :
    ∀ (is : List Nat) (s : σ) (out : List K), is.Pairwise (· < ·) → (∀ i ∈ is, i + start < T.num) → I s → S.n ≤ out.length →
      ∃ s' out', ptLoop S T w start b0 b1 is (s, out) = .ok (s', out') ∧ I s' ∧ out'.length = out.length ∧
        ∀ q, out'.getD q 0 = out.getD q 0 + if b0 ≤ q ∧ q < b1 then (is.map fun i => term S T ms A (w.getD i 0) (i + start) q).sum else 0 := by
  intro is
  induction is with
  | nil =>
    intro s out _ _ hs hout
    exact ⟨s, out, rfl, hs, rfl, fun q => by simp⟩
  | cons i is ih =>
    intro s out hpw hlt hs hout
    have hp := hlt i List.mem_cons_self
    obtain ⟨c, c1, c2⟩ := causalInd_ok h hp
    unfold ptLoop
    simp only
    rw [c1]
    simp only [Res.ok_bind]
    by_cases hc : b1 ≤ c
    · have e1 : clampN c b0 b1 = b1 := by unfold clampN; split_ifs <;> omega
      rw [e1, Nat.sub_self, if_pos rfl]
      refine ⟨s, out, rfl, hs, rfl, fun q => ?_⟩
      by_cases hq : b0 ≤ q ∧ q < b1
      · rw [if_pos hq]
        have hz : ∀ j ∈ i :: is, term S T ms A (w.getD j 0) (j + start) q = 0 := by
          intro j hj
          unfold term
          rw [if_neg]
          rintro ⟨hj', _⟩
          have hij : i ≤ j := by
            rcases List.mem_cons.1 hj with rfl | hj
            · exact Nat.le_refl _
            · exact Nat.le_of_lt ((List.pairwise_cons.1 hpw).1 j hj)
          have := (c2 q).2 (hj'.anti h (by omega))
          omega
        have : ((i :: is).map fun j => term S T ms A (w.getD j 0) (j + start) q).sum = 0 := by
          apply List.sum_eq_zero
          intro x hx
          obtain ⟨j, hj, rfl⟩ := List.mem_map.1 hx
          exact hz j hj
        rw [this, add_zero]
      · rw [if_neg hq, add_zero]
    · have e1 : clampN c b0 b1 = max c b0 := by unfold clampN; split_ifs <;> omega
      rw [e1]
      set b := max c b0 with hb
      have hbb : b < b1 := by omega
      have hca : Causal S T (i + start) b := (c2 b).1 (by omega)
      rw [if_neg (by omega)]
      have hpos : (0 : K) ≤ b * S.tsamp + S.tsig - T.time (i + start) := by
        unfold Causal Setup.time at hca; linarith
      rw [show decide (0 ≤ (b : K) * S.tsamp + S.tsig - T.time (i + start)) = true from decide_eq_true hpos,
        show decide (b + (b1 - b) ≤ out.length) = true from decide_eq_true (by omega)]
      simp only [Res.assert_true, Res.ok_bind]
      obtain ⟨s1, out1, g1, g2, g3, g4⟩ := call_ok hL hk hg h hp hbb hb1 hca (S.junk (i + start) b0) (w.getD i 0 * T.step * S.weight * (-1)) hs hout
      rw [g1]
      simp only [Res.ok_bind]
      obtain ⟨s2, out2, f1, f2, f3, f4⟩ := ih s1 out1 (List.pairwise_cons.1 hpw).2 (fun j hj => hlt j (List.mem_cons_of_mem _ hj)) g2 (by omega)
      refine ⟨s2, out2, f1, f2, by omega, fun q => ?_⟩
      rw [f4 q, g4 q]
      by_cases hq : b0 ≤ q ∧ q < b1
      · rw [if_pos hq, if_pos hq, List.map_cons, List.sum_cons, ← add_assoc]
        congr 2
        unfold term
        by_cases hcq : Causal S T (i + start) q ∧ Covered S T ms (i + start) q
        · have := (c2 q).2 hcq.1
          rw [if_pos hcq, if_pos ⟨by omega, hq.2, hcq.2⟩]
        · rw [if_neg hcq, if_neg]
          rintro ⟨h1, _, h3⟩
          exact hcq ⟨(c2 q).1 (by omega), h3⟩
      · rw [if_neg hq, if_neg hq, if_neg (by omega), add_zero, add_zero]

open Classical in
/-- The loop over the sample blocks. -/
theorem sampleLoop_ok (hL : Serves S.L I ms A Q) (hk : S.kn.Usable) (hg : S.grow 0 = 0) (h : TrackOk S T ms Q) (w : List K) {start size : Nat} (hsz : start + size ≤ T.num) :
    ∀ (fuel b : Nat) (s : σ) (out : List K), 0 < fuel → S.n < fuel + b → b < 2 ^ 63 → I s → S.n ≤ out.length →
      ∃ s' out', sampleLoop S T w start size fuel b (s, out) = .ok (s', out') ∧ I s' ∧ out'.length = out.length ∧
        ∀ q, out'.getD q 0 = out.getD q 0 + if b ≤ q ∧ q < S.n then ((List.range size).map fun i => term S T ms A (w.getD i 0) (i + start) q).sum else 0 := by
  have hU : U64 = 2 ^ 64 := rfl
  obtain ⟨k1, k2, k3, k4⟩ := h.blocks
  have hn := h.many
  intro fuel
  induction fuel with
  | zero =>
    intro b s out h0; omega
  | succ f ih =>
    intro b s out h0 hf hb hs hout
    unfold sampleLoop
    by_cases hlt : b < S.n
    · rw [if_pos hlt, wadd_eq (by omega)]
      obtain ⟨s1, out1, g1, g2, g3, g4⟩ := ptLoop_ok hL hk hg h w (start := start) (b0 := b) (b1 := min (b + S.maxS) S.n) (by omega) (by omega) (List.range size) s out List.pairwise_lt_range
        (fun i hi => by have := List.mem_range.1 hi; omega) hs hout
      rw [g1]
      simp only [Res.ok_bind]
      obtain ⟨s2, out2, f1, f2, f3, f4⟩ := ih (b + S.maxS) s1 out1 (by omega) (by omega) (by omega) g2 (by omega)
      refine ⟨s2, out2, f1, f2, by omega, fun q => ?_⟩
      rw [f4 q, g4 q, add_assoc]
      congr 1
      by_cases h1 : b ≤ q ∧ q < min (b + S.maxS) S.n
      · rw [if_pos h1, if_neg (by omega), if_pos (by omega), add_zero]
      · rw [if_neg h1, zero_add]
        by_cases h2 : b + S.maxS ≤ q ∧ q < S.n
        · rw [if_pos h2, if_pos (by omega)]
        · rw [if_neg h2, if_neg (by omega)]
    · rw [if_neg hlt]
      exact ⟨s, out, rfl, hs, rfl, fun q => by rw [if_neg (by omega), add_zero]⟩

open Classical in
/-- The loop over the integration blocks. -/
theorem itgrLoop_ok (hL : Serves S.L I ms A Q) (hk : S.kn.Usable) (hg : S.grow 0 = 0) (h : TrackOk S T ms Q) :
    ∀ (fuel b : Nat) (s : σ) (out : List K), 0 < fuel → T.num < fuel + b → b < 2 ^ 63 → I s → S.n ≤ out.length →
      ∃ s' out', itgrLoop S T fuel b (s, out) = .ok (s', out') ∧ I s' ∧ out'.length = out.length ∧
        ∀ q, out'.getD q 0 = out.getD q 0 + if q < S.n then ∑ p ∈ Finset.Ico b T.num, term S T ms A (trapezoid T.num p) p q else 0 := by
  have hU : U64 = 2 ^ 64 := rfl
  obtain ⟨k1, k2, k3, k4⟩ := h.blocks
  have hn := h.num
  have hmany := h.many
  intro fuel
  induction fuel with
  | zero =>
    intro b s out h0; omega
  | succ f ih =>
    intro b s out h0 hf hb hs hout
    unfold itgrLoop
    by_cases hlt : b < T.num
    · rw [if_pos hlt]
      simp only
      set size := min S.maxI (T.num - b) with hsize
      have hw : blockWeights T.num b size S.wjunk = .ok ((List.range size).map fun i => trapezoid (K := K) T.num (b + i)) := by
        unfold blockWeights
        rw [wadd_eq (by omega), fillWeights_eq _ _ _ _ (by omega) (by omega) (by omega) (by rw [List.length_map, List.length_range]; omega)]
        rw [show b + size - b = size by omega]
      rw [hw]
      simp only [Res.ok_bind]
      obtain ⟨s1, out1, g1, g2, g3, g4⟩ := sampleLoop_ok hL hk hg h ((List.range size).map fun i => trapezoid (K := K) T.num (b + i)) (start := b) (size := size) (by omega)
        (S.n + 1) 0 s out (by omega) (by omega) (by omega) hs hout
      rw [g1]
      simp only [Res.ok_bind]
      rw [wadd_eq (by omega)]
      obtain ⟨s2, out2, f1, f2, f3, f4⟩ := ih (b + S.maxI) s1 out1 (by omega) (by omega) (by omega) g2 (by omega)
      refine ⟨s2, out2, f1, f2, by omega, fun q => ?_⟩
      rw [f4 q, g4 q, add_assoc]
      congr 1
      by_cases hq : q < S.n
      · rw [if_pos ⟨Nat.zero_le _, hq⟩, if_pos hq, if_pos hq]
        have e1 : ((List.range size).map fun i => term S T ms A (((List.range size).map fun i => trapezoid (K := K) T.num (b + i)).getD i 0) (i + b) q).sum =
            ∑ p ∈ Finset.Ico b (b + size), term S T ms A (trapezoid T.num p) p q := by
          rw [Finset.sum_Ico_eq_sum_range, show b + size - b = size by omega, ← sum_range_list]
          congr 1
          apply List.map_congr_left
          intro i hi
          have hi := List.mem_range.1 hi
          rw [List.getD_eq_getElem?_getD, List.getElem?_map, List.getElem?_range hi, Option.map_some, Option.getD_some, Nat.add_comm i b]
        rw [e1]
        by_cases h2 : b + S.maxI ≤ T.num
        · rw [show b + size = b + S.maxI by omega]
          exact Finset.sum_Ico_consecutive _ (by omega) h2
        · rw [show b + size = T.num by omega, Finset.Ico_eq_empty (a := b + S.maxI) (by omega), Finset.sum_empty, add_zero]
      · rw [if_neg hq, if_neg hq, if_neg (by omega), add_zero]
    · rw [if_neg hlt]
      refine ⟨s, out, rfl, hs, rfl, fun q => ?_⟩
      rw [Finset.Ico_eq_empty (by omega), Finset.sum_empty, ite_self, add_zero]

end

end Verif.Green
