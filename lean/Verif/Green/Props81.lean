import Verif.Green.Props80
/-
C81: the accuracy of a signal in floating-point arithmetic, for `accumulate_inner_product` (GreensFunction.hxx 364-436). The program is `accumulateF` of `Verif.Green.Props80`.
-/
namespace Verif.Green
open Verif Verif.ND Verif.Dist

set_option linter.unusedSectionVars false

/-! ### Specification -/

/-- The new value `o'` of a sample that had the value `o`: it is `o` plus the weight times the inner product of the source with the interpolated field, at a position that is displaced from `(x, y, t)`
    by at most `ex`, `ex`, `et` (in units of the grid), up to an error of `rel` relative to the sum of the magnitudes of all terms. -/
def Contribution (kn : Kern ℝ) (F : Nat → Int → Int → Int → ℝ) (source : List ℝ) (weight : ℝ) (ex et rel : ℝ) (x y t o o' : ℝ) : Prop :=
  ∃ x' y' t', |x' - x| ≤ ex ∧ |y' - y| ≤ ex ∧ |t' - t| ≤ et ∧
    |o' - (o + (interpAt kn (F 0) x' y' t' * source.getD 0 0 + interpAt kn (F 1) x' y' t' * source.getD 1 0) * weight)| ≤
      rel * (|o| + (interpMag kn (F 0) x' y' t' * |source.getD 0 0| + interpMag kn (F 1) x' y' t' * |source.getD 1 0|) * |weight|)

/-- The chunks, padding on one side included, have at most `W` elements along each axis. -/
def WithinWidth (W : Nat) (ms : List Meta) : Prop := ∀ m ∈ ms, ∀ d < 3, m.shape.getD d 0 + m.overlap ≤ W

/-- No sample in a stored chunk comes after a sample in an all-zero chunk (`p k` is the position along the time axis of sample `k`, as computed). -/
def NullLast (ms : List Meta) (x y : ℝ) (p : Nat → ℝ) (n : Nat) : Prop :=
  ∀ (j k : Nat) (m m' : Meta), j < k → k < n → m ∈ ms → m' ∈ ms → InBox m.start m.stop (cell x y (p j)) → InBox m'.start m'.stop (cell x y (p k)) →
    m.ctype = .all_null → m'.ctype = .all_null

/-! ### Proofs -/

variable {A : Arith} {u : ℝ}

theorem interpMag_congr {kn : Kern ℝ} {G G' : Int → Int → Int → ℝ} {x y t : ℝ}
    (h : ∀ a b c : Nat, a < 2 * kn.support → b < 2 * kn.support → c < 2 * kn.support →
      G (⌊x⌋ - (kn.support - 1 : Int) + a) (⌊y⌋ - (kn.support - 1 : Int) + b) (⌊t⌋ - (kn.support - 1 : Int) + c) =
      G' (⌊x⌋ - (kn.support - 1 : Int) + a) (⌊y⌋ - (kn.support - 1 : Int) + b) (⌊t⌋ - (kn.support - 1 : Int) + c)) :
    interpMag kn G x y t = interpMag kn G' x y t := by
  unfold interpMag
  apply Finset.sum_congr rfl; intro a ha
  apply Finset.sum_congr rfl; intro b hb
  apply Finset.sum_congr rfl; intro c hc
  rw [h a b c (Finset.mem_range.1 ha) (Finset.mem_range.1 hb) (Finset.mem_range.1 hc)]

theorem interpMag_shift (kn : Kern ℝ) (G : Int → Int → Int → ℝ) (x y t : ℝ) (a b c : Int) :
    interpMag kn (fun i j k => G (i - a) (j - b) (k - c)) x y t = interpMag kn G (x - a) (y - b) (t - c) := by
  unfold interpMag
  simp only [Int.fract_sub_intCast, Int.floor_sub_intCast]
  apply Finset.sum_congr rfl; intro i _
  apply Finset.sum_congr rfl; intro j _
  apply Finset.sum_congr rfl; intro k _
  congr 2
  congr 1 <;> ring

theorem interpAt_le_mag (kn : Kern ℝ) (G : Int → Int → Int → ℝ) (x y t : ℝ) : |interpAt kn G x y t| ≤ interpMag kn G x y t := by
  unfold interpAt interpMag
  refine (Finset.abs_sum_le_sum_abs _ _).trans (Finset.sum_le_sum fun a _ => ?_)
  refine (Finset.abs_sum_le_sum_abs _ _).trans (Finset.sum_le_sum fun b _ => ?_)
  exact Finset.abs_sum_le_sum_abs _ _

/-- The stencil of a position inside of the array of a chunk lies in the padded chunk. -/
theorem stencil_padded {kn : Kern ℝ} {m : Meta} (hM : MetaOk m) {lx ly lt : ℝ} (hx : Inside kn.support (m.shape.getD 0 0 + 2 * m.overlap) lx)
    (hy : Inside kn.support (m.shape.getD 1 0 + 2 * m.overlap) ly) (ht : Inside kn.support (m.shape.getD 2 0 + 2 * m.overlap) lt) {a b c : Nat} (ha : a < 2 * kn.support)
    (hb : b < 2 * kn.support) (hc : c < 2 * kn.support) :
    InPadded m (⌊lx⌋ + ((m.start.getD 0 0 : Int) - m.overlap) - (kn.support - 1 : Int) + a) (⌊ly⌋ + ((m.start.getD 1 0 : Int) - m.overlap) - (kn.support - 1 : Int) + b)
      (⌊lt⌋ + ((m.start.getD 2 0 : Int) - m.overlap) - (kn.support - 1 : Int) + c) := by
  have st0 := hM.getD_stop 0
  have st1 := hM.getD_stop 1
  have st2 := hM.getD_stop 2
  unfold Inside at hx hy ht
  push_cast at hx hy ht
  unfold InPadded
  omega

/-- The interpolation in the array of a chunk is the interpolation of the field. -/
theorem interp_global {kn : Kern ℝ} {m : Meta} (hM : MetaOk m) {lx ly lt : ℝ} (hx : Inside kn.support (m.shape.getD 0 0 + 2 * m.overlap) lx)
    (hy : Inside kn.support (m.shape.getD 1 0 + 2 * m.overlap) ly) (ht : Inside kn.support (m.shape.getD 2 0 + 2 * m.overlap) lt) {C F : Int → Int → Int → ℝ}
    (h : ∀ i j k, InPadded m i j k → C (i - m.start.getD 0 0 + m.overlap) (j - m.start.getD 1 0 + m.overlap) (k - m.start.getD 2 0 + m.overlap) = F i j k) :
    interpAt kn C lx ly lt = interpAt kn F (lx + ((m.start.getD 0 0 : Int) - m.overlap : Int)) (ly + ((m.start.getD 1 0 : Int) - m.overlap : Int)) (lt + ((m.start.getD 2 0 : Int) - m.overlap : Int)) ∧
    interpMag kn C lx ly lt = interpMag kn F (lx + ((m.start.getD 0 0 : Int) - m.overlap : Int)) (ly + ((m.start.getD 1 0 : Int) - m.overlap : Int)) (lt + ((m.start.getD 2 0 : Int) - m.overlap : Int)) := by
  have key : ∀ a b c : Nat, a < 2 * kn.support → b < 2 * kn.support → c < 2 * kn.support →
      C (⌊lx⌋ + ((m.start.getD 0 0 : Int) - m.overlap) - (kn.support - 1 : Int) + a - ((m.start.getD 0 0 : Int) - m.overlap))
        (⌊ly⌋ + ((m.start.getD 1 0 : Int) - m.overlap) - (kn.support - 1 : Int) + b - ((m.start.getD 1 0 : Int) - m.overlap))
        (⌊lt⌋ + ((m.start.getD 2 0 : Int) - m.overlap) - (kn.support - 1 : Int) + c - ((m.start.getD 2 0 : Int) - m.overlap)) =
      F (⌊lx⌋ + ((m.start.getD 0 0 : Int) - m.overlap) - (kn.support - 1 : Int) + a) (⌊ly⌋ + ((m.start.getD 1 0 : Int) - m.overlap) - (kn.support - 1 : Int) + b)
        (⌊lt⌋ + ((m.start.getD 2 0 : Int) - m.overlap) - (kn.support - 1 : Int) + c) := by
    intro a b c ha hb hc
    rw [← h _ _ _ (stencil_padded hM hx hy ht ha hb hc)]
    congr 1 <;> ring
  constructor
  · have := interpAt_shift kn C (lx + ((m.start.getD 0 0 : Int) - m.overlap : Int)) (ly + ((m.start.getD 1 0 : Int) - m.overlap : Int)) (lt + ((m.start.getD 2 0 : Int) - m.overlap : Int))
      ((m.start.getD 0 0 : Int) - m.overlap) ((m.start.getD 1 0 : Int) - m.overlap) ((m.start.getD 2 0 : Int) - m.overlap)
    rw [add_sub_cancel_right, add_sub_cancel_right, add_sub_cancel_right] at this
    rw [← this]
    apply interpAt_congr
    intro a b c ha hb hc _
    simp only [Int.floor_add_intCast]
    exact key a b c ha hb hc
  · have := interpMag_shift kn C (lx + ((m.start.getD 0 0 : Int) - m.overlap : Int)) (ly + ((m.start.getD 1 0 : Int) - m.overlap : Int)) (lt + ((m.start.getD 2 0 : Int) - m.overlap : Int))
      ((m.start.getD 0 0 : Int) - m.overlap) ((m.start.getD 1 0 : Int) - m.overlap) ((m.start.getD 2 0 : Int) - m.overlap)
    rw [add_sub_cancel_right, add_sub_cancel_right, add_sub_cancel_right] at this
    rw [← this]
    apply interpMag_congr
    intro a b c ha hb hc
    simp only [Int.floor_add_intCast]
    exact key a b c ha hb hc

/-- What `addProductsF` adds. -/
theorem addProductsF_values (A : Arith) (buf : List ℝ) (source : List ℝ) (weight : ℝ) (req : Nat) (hb : buf.length = req * 2) :
    ∀ (n : Nat), n ≤ req → ∀ (out : List ℝ) (pos : Nat), pos + n ≤ out.length →
    ∃ out', runLoop (addProductsF A (mkHdr 2 [req]) buf source weight) (List.range n) (out, pos) = .ok (out', pos + n) ∧ out'.length = out.length ∧
      ∀ p, out'.getD p 0 = if pos ≤ p ∧ p < pos + n then
        A.mulAdd (A.mulAdd (buf.getD (2 * (p - pos) + 1) 0) (source.getD 1 0) (A.mul (buf.getD (2 * (p - pos)) 0) (source.getD 0 0))) weight (out.getD p 0) else out.getD p 0 := by
  intro n
  induction n with
  | zero => intro _ out pos _; exact ⟨out, rfl, rfl, fun p => by rw [if_neg (by omega)]⟩
  | succ n ih =>
    intro hn out pos hp
    obtain ⟨o1, e1, l1, v1⟩ := ih (by omega) out pos (by omega)
    have app : ∀ (f : Nat → List ℝ × Nat → Res (List ℝ × Nat)) (a b : List Nat) (s : List ℝ × Nat),
        runLoop f (a ++ b) s = (runLoop f a s).bind (runLoop f b) := by
      intro f a
      induction a with
      | nil => intro b s; rfl
      | cons x a iha =>
        intro b s
        simp only [List.cons_append, runLoop]
        cases f x s <;> simp [Res.bind, iha]
    rw [List.range_succ, app, e1]
    simp only [Res.ok_bind, runLoop]
    have hr : read1 2 (mkHdr 2 [req]) buf n = .ok ((buf.drop (2 * n)).take 2) := by
      unfold read1
      rw [if_pos (by simp [hasIndex, mkHdr]; omega), if_pos (by omega)]
    unfold addProductsF
    rw [hr]
    simp only [Res.ok_bind]
    rw [if_pos (by omega)]
    simp only [Res.ok_bind]
    refine ⟨_, rfl, by simp [l1], fun p => ?_⟩
    have hin : innerProductF A ((buf.drop (2 * n)).take 2) source = A.mulAdd (buf.getD (2 * n + 1) 0) (source.getD 1 0) (A.mul (buf.getD (2 * n) 0) (source.getD 0 0)) := by
      unfold innerProductF
      simp only [List.getD_eq_getElem?_getD]
      rw [List.getElem?_take_of_lt (by decide), List.getElem?_take_of_lt (by decide), List.getElem?_drop, List.getElem?_drop]
      rfl
    rw [hin]
    by_cases hpp : p = pos + n
    · subst hpp
      have hv := v1 (pos + n)
      rw [if_neg (by omega)] at hv
      have : pos + n - pos = n := by omega
      rw [if_pos (by omega), this, List.getD_eq_getElem?_getD, List.getElem?_set_self (by omega), hv]
      rfl
    · have e0 : ∀ v : ℝ, (o1.set (pos + n) v).getD p 0 = o1.getD p 0 := by
        intro v
        rw [List.getD_eq_getElem?_getD, List.getElem?_set_ne (by omega), List.getD_eq_getElem?_getD]
      rw [e0, v1]
      by_cases h : pos ≤ p ∧ p < pos + n
      · rw [if_pos h, if_pos (by omega)]
      · rw [if_neg h, if_neg (by omega)]

/-- The roundings of the inner product and of the sum. -/
theorem product_near (hA : A.Rounds u) {R : Nat} {d0 g0 M0 d1 g1 M1 : ℝ} (h0 : Near u R d0 g0 M0) (h1 : Near u R d1 g1 M1) (s0 s1 w o : ℝ) :
    |A.mulAdd (A.mulAdd d1 s1 (A.mul d0 s0)) w o - (o + (g0 * s0 + g1 * s1) * w)| ≤ ((1 + u) ^ (R + 4) - 1) * (|o| + (M0 * |s0| + M1 * |s1|) * |w|) := by
  have hu := hA.nonneg
  have a1 := h0.mul hA (Near.refl hu 0 s0)
  have a2 := h1.mulAdd hA (Near.refl hu 0 s1) a1 (by omega)
  have a3 := a2.mulAdd hA (Near.refl hu 0 w) (Near.refl hu (R + 3) o) (by omega)
  exact a3.1

section
variable {σ : Type} {L : Library σ ℝ} {I : σ → Prop} {ms : List Meta} {F : Nat → Int → Int → Int → ℝ}

/-- One chunk. -/
theorem chunkPartF_ok (hL : Serves L I ms F) (hA : A.Rounds u) (hu1 : u ≤ 1) {B : Nat} (hB : A.Counts B) {kf kn : Kern ℝ} {kk : Nat} (hk : KernClose u kf kn kk)
    (hlast : kn.weight 0 (2 * kn.support - 1) = 0) {grow : ℝ → ℝ} (hg : grow 0 = 0) {N W : Nat} {m : Meta} (hm : m ∈ ms) (hov : kn.support < m.overlap) (hsm : Meta.Small m u)
    (hsize : ∀ d < 3, m.stop.getD d 0 + m.overlap ≤ B) (hW : ∀ d < 3, m.shape.getD d 0 + m.overlap ≤ W) {x y t dt : ℝ}
    (hx : ((m.start.getD 0 0 : Nat) : ℝ) ≤ x ∧ x < ((m.stop.getD 0 0 : Nat) : ℝ)) (hy : ((m.start.getD 1 0 : Nat) : ℝ) ≤ y ∧ y < ((m.stop.getD 1 0 : Nat) : ℝ))
    (ht : ((m.start.getD 2 0 : Nat) : ℝ) ≤ t ∧ t < ((m.stop.getD 2 0 : Nat) : ℝ)) (hdt : 0 < dt) {left : Nat} (hl : 0 < left) (hl64 : left < U64)
    (hmax : (1 + u) ^ 2 * ((m.stop.getD 2 0 : Nat) - t) < 2 ^ 63 * dt) (source : List ℝ) (weight : ℝ) (a : Acc σ ℝ) (ha : I a.lib) (hb : BufOk N a) (hN : left * 2 ≤ N) :
    requestF A (m.stop.getD 2 0) t dt left = .abort ∨
    ∃ req, requestF A (m.stop.getD 2 0) t dt left = .ok req ∧ 0 < req ∧ req ≤ left ∧
      (m.ctype = .specified → a.pos + req ≤ a.out.length →
        ∃ b, chunkPartF A L kf grow m x y t dt req source weight a = .ok b ∧ I b.lib ∧ BufOk N b ∧ b.pos = a.pos + req ∧ b.cur = a.cur ∧ b.out.length = a.out.length ∧
          (∀ p, ¬ (a.pos ≤ p ∧ p < a.pos + req) → b.out.getD p 0 = a.out.getD p 0) ∧
          ∀ k < req, Contribution kn F source weight (u * W) (((1 + u) ^ 5 - 1) * W) ((1 + u) ^ (roundings kn.support kk + 4) - 1) x y (t + k * dt) (a.out.getD (a.pos + k) 0)
            (b.out.getD (a.pos + k) 0)) ∧
      (m.ctype = .all_null → ∀ k < req, ∀ o, Contribution kn F source weight (u * W) (((1 + u) ^ 5 - 1) * W) ((1 + u) ^ (roundings kn.support kk + 4) - 1) x y (t + k * dt) o o) := by
  have hu := hA.nonneg
  have hU : U64 = 2 ^ 64 := rfl
  have hM := hL.ok m hm
  rcases chunk_positions hA hu1 hB hM hov hsm hsize hx hy ht hdt hl hl64 hmax with h | ⟨req, hreq, r0, rl, lx, ly, lt, ex, ey, et, bx, b_y, ix, iy, ip⟩
  · exact Or.inl h
  right
  refine ⟨req, hreq, r0, rl, ?_, ?_⟩
  all_goals
    have st0 := hM.getD_stop 0
    have st1 := hM.getD_stop 1
    have st2 := hM.getD_stop 2
    have lt0 := hM.lt 0 (by decide)
    have lt1 := hM.lt 1 (by decide)
    have lt2 := hM.lt 2 (by decide)
    have hovl := hM.ovl
    have c0 : ((m.stop.getD 0 0 : Nat) : ℝ) = (m.start.getD 0 0 : Nat) + (m.shape.getD 0 0 : Nat) := by rw [st0]; push_cast; ring
    have c1 : ((m.stop.getD 1 0 : Nat) : ℝ) = (m.start.getD 1 0 : Nat) + (m.shape.getD 1 0 : Nat) := by rw [st1]; push_cast; ring
    have w0 : ((m.shape.getD 0 0 + m.overlap : Nat) : ℝ) ≤ W := by exact_mod_cast hW 0 (by decide)
    have w1 : ((m.shape.getD 1 0 + m.overlap : Nat) : ℝ) ≤ W := by exact_mod_cast hW 1 (by decide)
    have w2 : ((m.shape.getD 2 0 + m.overlap : Nat) : ℝ) ≤ W := by exact_mod_cast hW 2 (by decide)
    push_cast at w0 w1
    have dx : |lx + ((m.start.getD 0 0 : Int) - m.overlap : Int) - x| ≤ u * W := by
      have e : lx + ((m.start.getD 0 0 : Int) - m.overlap : Int) - x = lx - (x - m.start.getD 0 0 + m.overlap) := by push_cast; ring
      rw [e]
      exact bx.trans (mul_le_mul_of_nonneg_left (by linarith [hx.2]) hu)
    have dy : |ly + ((m.start.getD 1 0 : Int) - m.overlap : Int) - y| ≤ u * W := by
      have e : ly + ((m.start.getD 1 0 : Int) - m.overlap : Int) - y = ly - (y - m.start.getD 1 0 + m.overlap) := by push_cast; ring
      rw [e]
      exact b_y.trans (mul_le_mul_of_nonneg_left (by linarith [hy.2]) hu)
    have d2 : ∀ k : Nat, k < req → |sampleInd A lt dt k + ((m.start.getD 2 0 : Int) - m.overlap : Int) - (t + k * dt)| ≤ ((1 + u) ^ 5 - 1) * W := by
      intro k hk'
      obtain ⟨q1, -, q3⟩ := ip k hk'
      have e : sampleInd A lt dt k + ((m.start.getD 2 0 : Int) - m.overlap : Int) - (t + k * dt) = sampleInd A lt dt k - (t + k * dt - m.start.getD 2 0 + m.overlap) := by push_cast; ring
      rw [e]
      refine q1.trans ?_
      have p3 := one_le_pow hu 3
      have p2 := one_le_pow hu 2
      have q4 : t + k * dt - (m.start.getD 2 0 : Nat) + m.overlap ≤ W * (1 + u) ^ 2 := q3.trans (mul_le_mul_of_nonneg_right w2 (by linarith))
      have q5 := mul_le_mul_of_nonneg_left q4 (by linarith : 0 ≤ (1 + u) ^ 3 - 1)
      have W0 : (0 : ℝ) ≤ W := Nat.cast_nonneg _
      have e2 : ((1 + u) ^ 3 - 1) * (W * (1 + u) ^ 2) = ((1 + u) ^ 5 - (1 + u) ^ 2) * W := by ring
      rw [e2] at q5
      exact q5.trans (mul_le_mul_of_nonneg_right (by linarith) W0)
  · intro hsp hpos
    obtain ⟨s', buf, l1, l2, l3, l4⟩ := hL.load a.lib m ha hm hsp
    unfold chunkPartF
    rw [hsp]
    simp only
    rw [l1]
    simp only [Res.ok_bind]
    rw [ex, ey, et]
    simp only [Res.ok_bind]
    have sh : m.shape.map (· + 2 * m.overlap) = [m.shape.getD 0 0 + 2 * m.overlap, m.shape.getD 1 0 + 2 * m.overlap, m.shape.getD 2 0 + 2 * m.overlap] := hM.shape3
    rw [sh] at l3 l4 ⊢
    obtain ⟨d, e1, e2, e3⟩ := interpolateF_ok hA hk hlast (vd := 2) (by decide) l3 (by omega) (by omega) (by omega) (hr := mkHdr 2 [a.size / 2]) rfl
      (List.replicate a.size 0) lx ly lt dt req (fun k => grow (a.mem.getD k 0)) ix iy (fun k hk' => Or.inl (ip k hk').2.1)
    rw [e1]
    simp only [Res.ok_bind]
    obtain ⟨o, f1, f2, f3⟩ := addProductsF_values A d source weight req e2 req (Nat.le_refl _) a.out a.pos hpos
    rw [f1]
    simp only [Res.ok_bind]
    refine ⟨_, rfl, l2, ⟨?_, ?_, ?_⟩, rfl, rfl, f2, fun p hp => ?_, fun k hk' => ?_⟩
    · have := hb.len
      have := hb.size
      simp only [List.length_append, List.length_drop, List.length_replicate]; omega
    · simp only; omega
    · intro k hkk
      simp only at hkk ⊢
      rw [List.getD_eq_getElem?_getD, List.getElem?_append_right hkk, List.getElem?_drop]
      have : d.length + (k - d.length) = k := by omega
      rw [this]
      by_cases hks : k < a.size
      · rw [List.getElem?_append_left (by simpa using hks), List.getElem?_replicate, if_pos hks]; rfl
      · rw [List.getElem?_append_right (by simp; omega), List.getElem?_drop, List.length_replicate]
        have : a.size + (k - a.size) = k := by omega
        rw [this, ← List.getD_eq_getElem?_getD]
        exact hb.zero k (by omega)
    · simp only
      rw [f3 p, if_neg hp]
    · simp only
      refine ⟨_, _, _, dx, dy, d2 k hk', ?_⟩
      have hz : ∀ q, (List.replicate a.size (0 : ℝ)).getD q (grow (a.mem.getD q 0)) = 0 := by
        intro q
        by_cases hq : q < a.size
        · rw [List.getD_eq_getElem?_getD, List.getElem?_replicate, if_pos hq]; rfl
        · rw [List.getD_eq_getElem?_getD, List.getElem?_replicate, if_neg hq, hb.zero q (by omega), hg]; rfl
      have near : ∀ c, c < 2 → Near u (roundings kn.support kk) (d.getD (2 * k + c) 0)
          (interpAt kn (F c) (lx + ((m.start.getD 0 0 : Int) - m.overlap : Int)) (ly + ((m.start.getD 1 0 : Int) - m.overlap : Int)) (sampleInd A lt dt k + ((m.start.getD 2 0 : Int) - m.overlap : Int)))
          (interpMag kn (F c) (lx + ((m.start.getD 0 0 : Int) - m.overlap : Int)) (ly + ((m.start.getD 1 0 : Int) - m.overlap : Int)) (sampleInd A lt dt k + ((m.start.getD 2 0 : Int) - m.overlap : Int))) := by
        intro c hc
        obtain ⟨g1, g2⟩ := interp_global hM ix iy (ip k hk').2.1 (C := component 2 (mkHdr 2 [m.shape.getD 0 0 + 2 * m.overlap, m.shape.getD 1 0 + 2 * m.overlap, m.shape.getD 2 0 + 2 * m.overlap]) buf c)
          (F := F c) (fun i j l hin => l4 c i j l hc hin trivial)
        rw [← g1, ← g2]
        exact ⟨e3 k c hk' hc (hz _), interpAt_le_mag _ _ _ _ _⟩
      have n0 := near 0 (by decide)
      rw [Nat.add_zero] at n0
      have hv := f3 (a.pos + k)
      rw [if_pos (by omega), Nat.add_sub_cancel_left] at hv
      rw [hv]
      exact product_near hA n0 (near 1 (by decide)) _ _ _ _
  · intro hnull k hk' o
    refine ⟨_, _, _, dx, dy, d2 k hk', ?_⟩
    have zero : ∀ c, c < 2 → interpAt kn (F c) (lx + ((m.start.getD 0 0 : Int) - m.overlap : Int)) (ly + ((m.start.getD 1 0 : Int) - m.overlap : Int))
        (sampleInd A lt dt k + ((m.start.getD 2 0 : Int) - m.overlap : Int)) = 0 ∧
        interpMag kn (F c) (lx + ((m.start.getD 0 0 : Int) - m.overlap : Int)) (ly + ((m.start.getD 1 0 : Int) - m.overlap : Int))
        (sampleInd A lt dt k + ((m.start.getD 2 0 : Int) - m.overlap : Int)) = 0 := by
      intro c hc
      obtain ⟨g1, g2⟩ := interp_global hM ix iy (ip k hk').2.1 (C := fun _ _ _ => 0) (F := F c) (fun i j l hin => (hL.null m hm hnull c i j l hc hin trivial).symm)
      rw [← g1, ← g2]
      exact ⟨interpAt_zero, by unfold interpMag; simp⟩
    rw [(zero 0 (by decide)).1, (zero 1 (by decide)).1, (zero 0 (by decide)).2, (zero 1 (by decide)).2]
    simp only [zero_mul, add_zero, sub_self, abs_zero]
    exact mul_nonneg (by linarith [one_le_pow hu (roundings kn.support kk + 4)]) (abs_nonneg _)

/-- The loop. -/
theorem accLoopF_ok (hL : Serves L I ms F) (hA : A.Rounds u) (hu1 : u ≤ 1) {B : Nat} (hB : A.Counts B) {kf kn : Kern ℝ} {kk : Nat} (hk : KernClose u kf kn kk)
    (hlast : kn.weight 0 (2 * kn.support - 1) = 0) {grow : ℝ → ℝ} (hg : grow 0 = 0) (oob : OOB) {x y ts dt : ℝ} (hx : 0 ≤ x ∧ x < 2 ^ 62) (hy : 0 ≤ y ∧ y < 2 ^ 62) (hts : 0 ≤ ts)
    (hdt : 0 < dt) {n : Nat} (hn : n < U64) (hmax : ∀ k < n, sampleInd A ts dt k < 2 ^ 62) (hc : ChunksOk B u kn.support dt ms) {W : Nat} (hW : WithinWidth W ms)
    (hnull : NullLast ms x y (sampleInd A ts dt) n)
    (hoob : oob = .ignore ∨ ∀ k < n, ∃ m ∈ ms, InBox m.start m.stop (cell x y (sampleInd A ts dt k))) (source : List ℝ) (weight : ℝ) {P : Nat} :
    ∀ (fuel : Nat) (a : Acc σ ℝ), I a.lib → a.cur ≤ n → BufOk (n * 2) a → P + n ≤ a.out.length → n - a.cur < fuel →
    (a.pos = P + a.cur ∨ ∃ (j : Nat) (m : Meta), j < a.cur ∧ m ∈ ms ∧ m.ctype = .all_null ∧ InBox m.start m.stop (cell x y (sampleInd A ts dt j))) →
    accLoopF A L kf grow oob x y ts dt n source weight fuel a = .abort ∨
    ∃ b e, accLoopF A L kf grow oob x y ts dt n source weight fuel a = .ok b ∧ I b.lib ∧ a.cur ≤ e ∧ e ≤ n ∧
      (e < n → ∀ m ∈ ms, ¬ InBox m.start m.stop (cell x y (sampleInd A ts dt e))) ∧ b.out.length = a.out.length ∧
      (∀ p, ¬ (P + a.cur ≤ p ∧ p < P + e) → b.out.getD p 0 = a.out.getD p 0) ∧
      ∀ k : Nat, a.cur ≤ k → k < e → Contribution kn F source weight (u * W) (((1 + u) ^ 3 - 1) * (ts + k * dt) + ((1 + u) ^ 5 - 1) * W)
        ((1 + u) ^ (roundings kn.support kk + 4) - 1) x y (ts + k * dt) (a.out.getD (P + k) 0) (b.out.getD (P + k) 0) := by
  have hU : U64 = 2 ^ 64 := rfl
  have hu := hA.nonneg
  intro fuel
  induction fuel with
  | zero => intro a _ _ _ _ h; omega
  | succ fuel ih =>
    intro a hI hcn hbuf hpos hfuel hal
    unfold accLoopF
    by_cases hcur : a.cur < n
    swap
    · rw [if_neg hcur]
      exact Or.inr ⟨a, a.cur, rfl, hI, le_rfl, hcn, fun h => absurd h hcur, rfl, fun _ _ => rfl, fun k h1 h2 => by omega⟩
    rw [if_pos hcur]
    simp only
    set t := sampleInd A ts dt a.cur with htd
    have t0 : 0 ≤ t := sampleInd_nonneg hA hu1 hts hdt.le a.cur
    have fx := floor_lt62 hx.2
    have fy := floor_lt62 hy.2
    have ft : ⌊t⌋ < 2 ^ 62 := floor_lt62 (hmax a.cur hcur)
    have gx := Int.floor_nonneg.2 hx.1
    have gy := Int.floor_nonneg.2 hy.1
    have gt := Int.floor_nonneg.2 t0
    rw [modf_nonneg hx.1, modf_nonneg hy.1, modf_nonneg t0]
    simp only
    rw [toSize_ok gx (by omega), toSize_ok gy (by omega), toSize_ok gt (by omega)]
    simp only [Res.ok_bind]
    by_cases hin : ∃ m ∈ ms, InBox m.start m.stop (cell x y t)
    · obtain ⟨m, hm, hbox⟩ := hin
      obtain ⟨s', hf, hI'⟩ := hL.found a.lib (cell x y t) m hI hm hbox
      have hf' : L.find a.lib [⌊x⌋.toNat, ⌊y⌋.toNat, ⌊t⌋.toNat] = .ok (s', some m) := hf
      rw [hf']
      simp only [Res.ok_bind]
      have hM := hL.ok m hm
      have hov := hc.padded m hm
      rw [show Res.assert (decide (kf.support ≤ m.overlap)) = .ok () by rw [hk.support]; simp [hov.le]]
      simp only [Res.ok_bind]
      obtain ⟨bx, by', bt⟩ := inBox3 hM hx.1 hy.1 t0 hbox
      have lo : ∀ {q : Nat} {w : ℝ}, (q : Int) ≤ ⌊w⌋ → (q : ℝ) ≤ w := fun {q w} h => by have := Int.le_floor.1 h; simpa using this
      have hi : ∀ {q : Nat} {w : ℝ}, ⌊w⌋ < (q : Int) → w < (q : ℝ) := fun {q w} h => by have := Int.floor_lt.1 h; simpa using this
      have rate := hc.rate m hm
      rcases chunkPartF_ok hL hA hu1 hB hk hlast hg (N := n * 2) hm hov (hc.small m hm) (hc.size m hm) (hW m hm) ⟨lo bx.1, hi bx.2⟩ ⟨lo by'.1, hi by'.2⟩ ⟨lo bt.1, hi bt.2⟩ hdt
          (left := n - a.cur) (by omega) (by omega) (by
            have : (1 + u) ^ 2 * ((m.stop.getD 2 0 : Nat) - t) ≤ (1 + u) ^ 2 * (m.stop.getD 2 0 : Nat) :=
              mul_le_mul_of_nonneg_left (by linarith) (by linarith [one_le_pow hu 2])
            linarith) source weight { a with lib := s' } hI' ⟨hbuf.len, hbuf.size, hbuf.zero⟩ (by omega) with hab | ⟨req, hreq, r0, rl, part, nul⟩
      · left; rw [hab]; rfl
      rw [hreq]
      simp only [Res.ok_bind]
      -- positions relative to the exact ones
      have move : ∀ {k : Nat} {o o' : ℝ}, k < req → Contribution kn F source weight (u * W) (((1 + u) ^ 5 - 1) * W) ((1 + u) ^ (roundings kn.support kk + 4) - 1) x y (t + k * dt) o o' →
          Contribution kn F source weight (u * W) (((1 + u) ^ 3 - 1) * (ts + (a.cur + k : Nat) * dt) + ((1 + u) ^ 5 - 1) * W)
            ((1 + u) ^ (roundings kn.support kk + 4) - 1) x y (ts + (a.cur + k : Nat) * dt) o o' := by
        intro k o o' hk' ⟨x', y', t', q1, q2, q3, q4⟩
        refine ⟨x', y', t', q1, q2, ?_, q4⟩
        have p1 := C79_positions hA ts dt a.cur
        rw [← htd, abs_of_nonneg hts, abs_of_nonneg (by positivity : (0 : ℝ) ≤ a.cur * dt)] at p1
        have p2 : |t' - (ts + (a.cur + k : Nat) * dt)| ≤ |t' - (t + k * dt)| + |t - (ts + a.cur * dt)| := by
          have := abs_add_le (t' - (t + k * dt)) (t - (ts + a.cur * dt))
          have e : t' - (t + k * dt) + (t - (ts + a.cur * dt)) = t' - (ts + (a.cur + k : Nat) * dt) := by push_cast; ring
          rwa [e] at this
        have p3 : ((1 + u) ^ 3 - 1) * (ts + a.cur * dt) ≤ ((1 + u) ^ 3 - 1) * (ts + (a.cur + k : Nat) * dt) := by
          refine mul_le_mul_of_nonneg_left ?_ (by linarith [one_le_pow hu 3])
          have : (0 : ℝ) ≤ k * dt := by positivity
          push_cast
          linarith
        linarith
      cases hsp : m.ctype with
      | all_null =>
        have e1 : chunkPartF A L kf grow m x y t dt req source weight { a with lib := s' } = .ok { a with lib := s' } := by
          unfold chunkPartF; rw [hsp]
        rw [e1]
        simp only [Res.ok_bind]
        rcases ih { a with lib := s', cur := a.cur + req } hI' (by show a.cur + req ≤ n; omega) ⟨hbuf.len, hbuf.size, hbuf.zero⟩ hpos (by show n - (a.cur + req) < fuel; omega)
          (Or.inr ⟨a.cur, m, by show a.cur < a.cur + req; omega, hm, hsp, hbox⟩) with h | ⟨b, e, z1, z2, z3, z4, z5, z6, z7, z8⟩
        · exact Or.inl h
        right
        simp only at z3 z7 z8
        refine ⟨b, e, z1, z2, by omega, z4, z5, z6, fun p hp => ?_, fun k h1 h2 => ?_⟩
        · exact z7 p (by omega)
        · by_cases h3 : a.cur + req ≤ k
          · exact z8 k h3 h2
          · have hz := z7 (P + k) (by omega)
            rw [hz]
            have := move (k := k - a.cur) (by omega) (nul hsp (k - a.cur) (by omega) (a.out.getD (P + k) 0))
            rwa [show a.cur + (k - a.cur) = k by omega] at this
      | specified =>
        have hp : a.pos = P + a.cur := by
          rcases hal with h | ⟨j, m', h1, h2, h3, h4⟩
          · exact h
          · have := hnull j a.cur m' m h1 hcur h2 hm h4 hbox h3
            rw [hsp] at this; cases this
        obtain ⟨b, i1, i2, i3, i4, i5, i6, i7, i8⟩ := part hsp (by show a.pos + req ≤ a.out.length; omega)
        simp only at i4 i5 i6 i7 i8
        rw [i1]
        simp only [Res.ok_bind]
        rcases ih { b with cur := b.cur + req } i2 (by show b.cur + req ≤ n; omega) ⟨i3.len, i3.size, i3.zero⟩ (by show P + n ≤ b.out.length; omega) (by show n - (b.cur + req) < fuel; omega)
          (Or.inl (by show b.pos = P + (b.cur + req); omega)) with h | ⟨c, e, z1, z2, z3, z4, z5, z6, z7, z8⟩
        · exact Or.inl h
        right
        simp only at z3 z6 z7 z8
        refine ⟨c, e, z1, z2, by omega, z4, z5, by omega, fun p hp' => ?_, fun k h1 h2 => ?_⟩
        · rw [z7 p (by omega), i7 p (by omega)]
        · by_cases h3 : a.cur + req ≤ k
          · have := z8 k (by omega) h2
            rwa [i7 (P + k) (by omega)] at this
          · rw [z7 (P + k) (by omega)]
            have := move (k := k - a.cur) (by omega) (i8 (k - a.cur) (by omega))
            rw [show a.cur + (k - a.cur) = k by omega, show a.pos + (k - a.cur) = P + k by omega] at this
            exact this
    · obtain ⟨s', hf, hI'⟩ := hL.missing a.lib (cell x y t) hI rfl (by
        intro d hd
        unfold cell
        interval_cases d <;> simp <;> omega) (fun m hm hb => hin ⟨m, hm, hb⟩)
      have hf' : L.find a.lib [⌊x⌋.toNat, ⌊y⌋.toNat, ⌊t⌋.toNat] = .ok (s', none) := hf
      rw [hf']
      simp only [Res.ok_bind]
      rcases hoob with h | h
      · rw [if_pos h]
        exact Or.inr ⟨_, a.cur, rfl, hI', le_rfl, hcn, fun _ m hm hb => hin ⟨m, hm, hb⟩, rfl, fun _ _ => rfl, fun k h1 h2 => by omega⟩
      · exact absurd (h a.cur hcur) hin

end

/-! ### The property -/

/-- C81. Let a library serve chunks of one sampled field `F`, padded by more than the kernel's support and small compared to the precision. Whatever the roundings, `accumulate_inner_product` (from the
    floating-point indices on) is stopped by an assertion (see C80), or it adds to the samples `k < e` of the signal the weight times the inner product of source and
    interpolated field, at a position that differs from `(x, y, ts + k dt)` only by roundings, with an error of a few roundings of the terms (`Contribution`); all other elements of the
    signal are unchanged. If all samples lie in chunks, `e = n`; in the mode `Ignore`, sample `e` is the first one outside of the domain.
    (Partial, like C38 and C80: `NullLast`, `hg`, padding larger than the support, and the assertion.) -/
theorem C81_signal_accuracy_partial {σ : Type} {L : Library σ ℝ} {I : σ → Prop} {ms : List Meta} {F : Nat → Int → Int → Int → ℝ} (hL : Serves L I ms F)
    (hA : A.Rounds u) (hu1 : u ≤ 1) {B : Nat} (hB : A.Counts B) {kf kn : Kern ℝ} {kk : Nat} (hk : KernClose u kf kn kk)
    (hlast : kn.weight 0 (2 * kn.support - 1) = 0) {grow : ℝ → ℝ} (hg : grow 0 = 0) (junk : Nat → ℝ) (oob : OOB) {x y ts dt : ℝ} (hx : 0 ≤ x ∧ x < 2 ^ 62) (hy : 0 ≤ y ∧ y < 2 ^ 62) (hts : 0 ≤ ts)
    (hdt : 0 < dt) {n : Nat} (hn : n < U64) (hmax : ∀ k < n, sampleInd A ts dt k < 2 ^ 62) (hc : ChunksOk B u kn.support dt ms) {W : Nat} (hW : WithinWidth W ms)
    (hnull : NullLast ms x y (sampleInd A ts dt) n)
    (hoob : oob = .ignore ∨ ∀ k < n, ∃ m ∈ ms, InBox m.start m.stop (cell x y (sampleInd A ts dt k))) (source : List ℝ) (weight : ℝ) (out : List ℝ) (P : Nat)
    (hout : P + n ≤ out.length) (s : σ) (hs : I s) :
    accumulateF A L kf grow junk x y ts dt n source out P weight oob s = .abort ∨
    ∃ s' out' e, accumulateF A L kf grow junk x y ts dt n source out P weight oob s = .ok (s', out') ∧ I s' ∧ out'.length = out.length ∧ e ≤ n ∧
      (e < n → ∀ m ∈ ms, ¬ InBox m.start m.stop (cell x y (sampleInd A ts dt e))) ∧
      (∀ p, ¬ (P ≤ p ∧ p < P + e) → out'.getD p 0 = out.getD p 0) ∧
      ∀ k : Nat, k < e → Contribution kn F source weight (u * W) (((1 + u) ^ 3 - 1) * (ts + k * dt) + ((1 + u) ^ 5 - 1) * W)
        ((1 + u) ^ (roundings kn.support kk + 4) - 1) x y (ts + k * dt) (out.getD (P + k) 0) (out'.getD (P + k) 0) := by
  unfold accumulateF
  rcases accLoopF_ok hL hA hu1 hB hk hlast hg oob hx hy hts hdt hn hmax hc hW hnull hoob source weight (P := P) (n + 1) ⟨s, (List.range (n * 2)).map junk, n * 2, out, P, 0⟩ hs (Nat.zero_le _)
    ⟨by simp, Nat.le_refl _, fun k hk' => by
      rw [List.getD_eq_getElem?_getD, List.getElem?_eq_none (by simpa using hk')]; rfl⟩ hout
    (by show n - 0 < n + 1; omega) (Or.inl rfl) with h | ⟨b, e, h1, h2, h3, h4, h5, h6, h7, h8⟩
  · left; rw [h]; rfl
  · right; rw [h1]
    exact ⟨b.lib, b.out, e, rfl, h2, h6, h4, h5, fun p hp => h7 p (by simpa using hp), fun k hk' => h8 k (Nat.zero_le _) hk'⟩

/-! ### Interpolation is Lipschitz continuous -/

/-- The interpolation with a kernel changes by at most `lam M` per grid step along an axis, and has values up to `Lam M`, for samples of magnitude up to `M`. -/
structure Steady (kn : Kern ℝ) (lam Lam : ℝ) : Prop where
  lip : ∀ (g : Int → ℝ) (M : ℝ), (∀ i, |g i| ≤ M) → ∀ x x', |interp1 kn g x - interp1 kn g x'| ≤ lam * M * |x - x'|
  bound : ∀ f, 0 ≤ f → f < 1 → absSum kn f ≤ Lam
  pos : 0 ≤ lam

theorem lip_cells {h : ℝ → ℝ} {g : Int → ℝ} {p : Int → ℝ → ℝ} {M lam : ℝ} (hg : ∀ i, |g i| ≤ M) (hl : 2 ≤ lam) (p0 : ∀ n, p n 0 = g n) (p1 : ∀ n, p n 1 = g (n + 1))
    (hp : ∀ n f f', 0 ≤ f → f ≤ 1 → 0 ≤ f' → f' ≤ 1 → |p n f - p n f'| ≤ lam * M * |f - f'|) (hh : ∀ x, h x = p ⌊x⌋ (Int.fract x)) (x x' : ℝ) :
    |h x - h x'| ≤ lam * M * |x - x'| := by
  have M0 : 0 ≤ M := (abs_nonneg _).trans (hg 0)
  have main : ∀ x x' : ℝ, x ≤ x' → |h x - h x'| ≤ lam * M * |x - x'| := by
    intro x x' hxx
    have f0 := Int.fract_nonneg x
    have f1 := (Int.fract_lt_one x).le
    have f0' := Int.fract_nonneg x'
    have f1' := (Int.fract_lt_one x').le
    have e := Int.floor_add_fract x
    have e' := Int.floor_add_fract x'
    rw [hh, hh]
    by_cases hc : ⌊x⌋ = ⌊x'⌋
    · rw [← hc]
      have := hp ⌊x⌋ _ _ f0 f1 f0' f1'
      have e2 : Int.fract x - Int.fract x' = x - x' := by rw [← hc] at e'; linarith
      rwa [e2] at this
    · have hlt : ⌊x⌋ + 1 ≤ ⌊x'⌋ := by
        have := Int.floor_le_floor hxx
        omega
      have a1 := hp ⌊x⌋ _ 1 f0 f1 zero_le_one le_rfl
      rw [p1, abs_of_nonpos (by linarith : Int.fract x - 1 ≤ 0)] at a1
      have a2 := hp ⌊x'⌋ 0 _ le_rfl zero_le_one f0' f1'
      rw [p0, abs_of_nonpos (by linarith : 0 - Int.fract x' ≤ 0)] at a2
      have a3 : |g (⌊x⌋ + 1) - g ⌊x'⌋| ≤ lam * M * (⌊x'⌋ - (⌊x⌋ + 1) : Int) := by
        by_cases hq : ⌊x⌋ + 1 = ⌊x'⌋
        · rw [← hq]; simp
        · have : (1 : ℝ) ≤ ((⌊x'⌋ - (⌊x⌋ + 1) : Int) : ℝ) := by exact_mod_cast (by omega : (1 : Int) ≤ ⌊x'⌋ - (⌊x⌋ + 1))
          have b := (abs_sub (g (⌊x⌋ + 1)) (g ⌊x'⌋)).trans (add_le_add (hg _) (hg _))
          have c : lam * M * 1 ≤ lam * M * ((⌊x'⌋ - (⌊x⌋ + 1) : Int) : ℝ) := mul_le_mul_of_nonneg_left this (by positivity)
          nlinarith
      rw [abs_of_nonpos (by linarith : x - x' ≤ 0)]
      push_cast at a3
      have t1 := abs_sub_le (p ⌊x⌋ (Int.fract x)) (g (⌊x⌋ + 1)) (p ⌊x'⌋ (Int.fract x'))
      have t2 := abs_sub_le (g (⌊x⌋ + 1)) (g ⌊x'⌋) (p ⌊x'⌋ (Int.fract x'))
      have q : lam * M * (-(Int.fract x - 1)) + lam * M * (⌊x'⌋ - (⌊x⌋ + 1)) + lam * M * (-(0 - Int.fract x')) = lam * M * (-(x - x')) := by
        rw [← e, ← e']
        simp only [Int.floor_add_fract]
        rw [← mul_add, ← mul_add]
        congr 1
        linarith
      linarith
  rcases le_total x x' with h1 | h1
  · exact main x x' h1
  · rw [abs_sub_comm, abs_sub_comm x]; exact main x' x h1

theorem linear_steady : Steady linear 2 1 where
  pos := by norm_num
  bound f h0 h1 := (absSum_linear f h0 h1).le
  lip g M hg x x' := by
    refine lip_cells (p := fun n f => (1 - f) * g n + f * g (n + 1)) hg le_rfl (fun n => by ring) (fun n => by ring) ?_ ?_ x x'
    · intro n f f' _ _ _ _
      have e : (1 - f) * g n + f * g (n + 1) - ((1 - f') * g n + f' * g (n + 1)) = (g (n + 1) - g n) * (f - f') := by ring
      rw [e, abs_mul]
      refine mul_le_mul_of_nonneg_right ?_ (abs_nonneg _)
      have := (abs_sub (g (n + 1)) (g n)).trans (add_le_add (hg _) (hg _))
      linarith
    · intro x
      obtain ⟨w0, w1⟩ := linear_weight (Int.fract x) (Int.fract_nonneg x) (Int.fract_lt_one x)
      unfold interp1
      rw [show 2 * (linear : Kern ℝ).support = 2 from rfl, Finset.sum_range_succ, Finset.sum_range_one, w0, w1]
      have : ((linear : Kern ℝ).support : Int) = 1 := rfl
      rw [this]
      simp

theorem keys_steady : Steady (keys (Real.sqrt 7)) 4 (5 / 4) where
  pos := by norm_num
  bound f h0 h1 := absSum_keys f h0 h1
  lip g M hg x x' := by
    have M0 : 0 ≤ M := (abs_nonneg _).trans (hg 0)
    refine lip_cells (p := fun n f => (-(1 / 2) * f * (f - 1) * (f - 1)) * g (n - 1) + (3 / 2 * f ^ 3 - 5 / 2 * f ^ 2 + 1) * g n + (-(3 / 2) * f ^ 3 + 2 * f ^ 2 + 1 / 2 * f) * g (n + 1) +
      ((f - 1) * (1 / 2) * (f * f)) * g (n + 2)) hg (by norm_num) (fun n => by ring) (fun n => by ring) ?_ ?_ x x'
    · intro n f f' h0 h1 h0' h1'
      have e : (-(1 / 2) * f * (f - 1) * (f - 1)) * g (n - 1) + (3 / 2 * f ^ 3 - 5 / 2 * f ^ 2 + 1) * g n + (-(3 / 2) * f ^ 3 + 2 * f ^ 2 + 1 / 2 * f) * g (n + 1) +
          ((f - 1) * (1 / 2) * (f * f)) * g (n + 2) - ((-(1 / 2) * f' * (f' - 1) * (f' - 1)) * g (n - 1) + (3 / 2 * f' ^ 3 - 5 / 2 * f' ^ 2 + 1) * g n +
          (-(3 / 2) * f' ^ 3 + 2 * f' ^ 2 + 1 / 2 * f') * g (n + 1) + ((f' - 1) * (1 / 2) * (f' * f')) * g (n + 2)) =
          ((-(1 / 2) * (f ^ 2 + f * f' + f' ^ 2) + (f + f') - 1 / 2) * g (n - 1) + (3 / 2 * (f ^ 2 + f * f' + f' ^ 2) - 5 / 2 * (f + f')) * g n +
          (-(3 / 2) * (f ^ 2 + f * f' + f' ^ 2) + 2 * (f + f') + 1 / 2) * g (n + 1) + (1 / 2 * (f ^ 2 + f * f' + f' ^ 2) - 1 / 2 * (f + f')) * g (n + 2)) * (f - f') := by ring
      rw [e, abs_mul]
      refine mul_le_mul_of_nonneg_right ?_ (abs_nonneg _)
      have q0 : |-(1 / 2) * (f ^ 2 + f * f' + f' ^ 2) + (f + f') - 1 / 2| ≤ 1 / 2 := by
        rw [abs_le]; constructor <;> nlinarith [sq_nonneg (f - f'), sq_nonneg (f + f' - 1), mul_nonneg h0 h0', mul_nonneg (sub_nonneg.2 h1) (sub_nonneg.2 h1'), mul_nonneg h0 (sub_nonneg.2 h1),
          mul_nonneg h0' (sub_nonneg.2 h1'), mul_nonneg h0 (sub_nonneg.2 h1'), mul_nonneg h0' (sub_nonneg.2 h1)]
      have q1 : |3 / 2 * (f ^ 2 + f * f' + f' ^ 2) - 5 / 2 * (f + f')| ≤ 3 / 2 := by
        rw [abs_le]; constructor <;> nlinarith [sq_nonneg (f - f'), sq_nonneg (f + f' - 10 / 9), mul_nonneg h0 h0', mul_nonneg (sub_nonneg.2 h1) (sub_nonneg.2 h1'), mul_nonneg h0 (sub_nonneg.2 h1),
          mul_nonneg h0' (sub_nonneg.2 h1'), mul_nonneg h0 (sub_nonneg.2 h1'), mul_nonneg h0' (sub_nonneg.2 h1)]
      have q2 : |-(3 / 2) * (f ^ 2 + f * f' + f' ^ 2) + 2 * (f + f') + 1 / 2| ≤ 3 / 2 := by
        rw [abs_le]; constructor <;> nlinarith [sq_nonneg (f - f'), sq_nonneg (f + f' - 8 / 9), mul_nonneg h0 h0', mul_nonneg (sub_nonneg.2 h1) (sub_nonneg.2 h1'), mul_nonneg h0 (sub_nonneg.2 h1),
          mul_nonneg h0' (sub_nonneg.2 h1'), mul_nonneg h0 (sub_nonneg.2 h1'), mul_nonneg h0' (sub_nonneg.2 h1)]
      have q3 : |1 / 2 * (f ^ 2 + f * f' + f' ^ 2) - 1 / 2 * (f + f')| ≤ 1 / 2 := by
        rw [abs_le]; constructor <;> nlinarith [sq_nonneg (f - f'), sq_nonneg (f + f' - 1), mul_nonneg h0 h0', mul_nonneg (sub_nonneg.2 h1) (sub_nonneg.2 h1'), mul_nonneg h0 (sub_nonneg.2 h1),
          mul_nonneg h0' (sub_nonneg.2 h1'), mul_nonneg h0 (sub_nonneg.2 h1'), mul_nonneg h0' (sub_nonneg.2 h1)]
      have t : ∀ {a b c d : ℝ}, |a + b + c + d| ≤ |a| + |b| + |c| + |d| := fun {a b c d} =>
        (abs_add_le _ _).trans (by linarith [(abs_add_le (a + b) c), abs_add_le a b])
      refine t.trans ?_
      rw [abs_mul, abs_mul, abs_mul, abs_mul]
      have m0 := mul_le_mul q0 (hg (n - 1)) (abs_nonneg _) (by norm_num)
      have m1 := mul_le_mul q1 (hg n) (abs_nonneg _) (by norm_num)
      have m2 := mul_le_mul q2 (hg (n + 1)) (abs_nonneg _) (by norm_num)
      have m3 := mul_le_mul q3 (hg (n + 2)) (abs_nonneg _) (by norm_num)
      linarith
    · intro x
      obtain ⟨w0, w1, w2, w3⟩ := keys_weight (Real.sqrt 7) (Int.fract x) (Int.fract_nonneg x) (Int.fract_lt_one x)
      have s7 := sqrt7
      unfold interp1
      rw [show 2 * (keys (Real.sqrt 7)).support = 4 from rfl, Finset.sum_range_succ, Finset.sum_range_succ, Finset.sum_range_succ, Finset.sum_range_one, w0, w1, w2, w3]
      have : ((keys (Real.sqrt 7)).support : Int) = 2 := rfl
      rw [this]
      set f := Int.fract x
      have v1 : 3 / 2 * (f - (1 - Real.sqrt 7) / 3) * ((f - (1 + Real.sqrt 7) / 3) * (f - 1)) = 3 / 2 * f ^ 3 - 5 / 2 * f ^ 2 + 1 := by
        linear_combination (-(1 / 6) * (f - 1)) * s7
      have v2 : (f - 1 / 3 * (2 - Real.sqrt 7)) * (f - 1 / 3 * (2 + Real.sqrt 7)) * (f * -(3 / 2)) = -(3 / 2) * f ^ 3 + 2 * f ^ 2 + 1 / 2 * f := by
        linear_combination (1 / 6 * f) * s7
      rw [v1, v2]
      have i0 : ⌊x⌋ - (2 - 1) + ((0 : ℕ) : Int) = ⌊x⌋ - 1 := by push_cast; ring
      have i1 : ⌊x⌋ - (2 - 1) + ((1 : ℕ) : Int) = ⌊x⌋ := by push_cast; ring
      have i2 : ⌊x⌋ - (2 - 1) + ((2 : ℕ) : Int) = ⌊x⌋ + 1 := by push_cast; ring
      have i3 : ⌊x⌋ - (2 - 1) + ((3 : ℕ) : Int) = ⌊x⌋ + 2 := by push_cast; ring
      rw [i0, i1, i2, i3]

theorem interp1_le {kn : Kern ℝ} {Lam : ℝ} (hb : ∀ f, 0 ≤ f → f < 1 → absSum kn f ≤ Lam) {g : Int → ℝ} {M : ℝ} (hg : ∀ i, |g i| ≤ M) (x : ℝ) : |interp1 kn g x| ≤ Lam * M := by
  have M0 : 0 ≤ M := (abs_nonneg _).trans (hg 0)
  unfold interp1
  refine (Finset.abs_sum_le_sum_abs _ _).trans ?_
  have : ∀ a ∈ Finset.range (2 * kn.support), |kn.weight (Int.fract x) a * g (⌊x⌋ - (kn.support - 1 : Int) + a)| ≤ |kn.weight (Int.fract x) a| * M := by
    intro a _
    rw [abs_mul]
    exact mul_le_mul_of_nonneg_left (hg _) (abs_nonneg _)
  refine (Finset.sum_le_sum this).trans ?_
  rw [← Finset.sum_mul]
  exact mul_le_mul_of_nonneg_right (hb _ (Int.fract_nonneg x) (Int.fract_lt_one x)) M0

theorem interp1_sub (kn : Kern ℝ) (g g' : Int → ℝ) (x : ℝ) : interp1 kn g x - interp1 kn g' x = interp1 kn (fun i => g i - g' i) x := by
  unfold interp1
  rw [← Finset.sum_sub_distrib]
  apply Finset.sum_congr rfl
  intro a _
  ring

/-- The interpolation in three dimensions. -/
theorem interpAt_lip {kn : Kern ℝ} {lam Lam : ℝ} (hk : Steady kn lam Lam) {G : Int → Int → Int → ℝ} {M : ℝ} (hG : ∀ i j k, |G i j k| ≤ M) (x y t x' y' t' : ℝ) :
    |interpAt kn G x y t - interpAt kn G x' y' t'| ≤ lam * Lam ^ 2 * M * (|x - x'| + |y - y'| + |t - t'|) := by
  have hb := hk.bound
  have a1 : |interpAt kn G x y t - interpAt kn G x' y t| ≤ lam * (Lam * (Lam * M)) * |x - x'| := by
    rw [interpAt_eq, interpAt_eq]
    exact hk.lip _ _ (fun i => interp1_le hb (fun j => interp1_le hb (fun k => hG i j k) t) y) x x'
  have a2 : |interpAt kn G x' y t - interpAt kn G x' y' t| ≤ Lam * (lam * (Lam * M) * |y - y'|) := by
    rw [interpAt_eq, interpAt_eq, interp1_sub]
    exact interp1_le hb (fun i => hk.lip _ _ (fun j => interp1_le hb (fun k => hG i j k) t) y y') x'
  have a3 : |interpAt kn G x' y' t - interpAt kn G x' y' t'| ≤ Lam * (Lam * (lam * M * |t - t'|)) := by
    rw [interpAt_eq, interpAt_eq, interp1_sub]
    refine interp1_le hb (fun i => ?_) x'
    rw [interp1_sub]
    exact interp1_le hb (fun j => hk.lip _ _ (fun k => hG i j k) t t') y'
  have t1 := abs_sub_le (interpAt kn G x y t) (interpAt kn G x' y t) (interpAt kn G x' y' t')
  have t2 := abs_sub_le (interpAt kn G x' y t) (interpAt kn G x' y' t) (interpAt kn G x' y' t')
  have e : lam * Lam ^ 2 * M * (|x - x'| + |y - y'| + |t - t'|) = lam * (Lam * (Lam * M)) * |x - x'| + Lam * (lam * (Lam * M) * |y - y'|) + Lam * (Lam * (lam * M * |t - t'|)) := by ring
  rw [e]
  linarith

theorem interpMag_bound {kn : Kern ℝ} {lam Lam : ℝ} (hk : Steady kn lam Lam) {G : Int → Int → Int → ℝ} {M : ℝ} (hG : ∀ i j k, |G i j k| ≤ M) (x y t : ℝ) : interpMag kn G x y t ≤ Lam ^ 3 * M := by
  have M0 : 0 ≤ M := (abs_nonneg _).trans (hG 0 0 0)
  refine (interpMag_le kn G hG x y t).trans (mul_le_mul_of_nonneg_right ?_ M0)
  have b0 := hk.bound _ (Int.fract_nonneg x) (Int.fract_lt_one x)
  have b1 := hk.bound _ (Int.fract_nonneg y) (Int.fract_lt_one y)
  have b2 := hk.bound _ (Int.fract_nonneg t) (Int.fract_lt_one t)
  have n0 := absSum_nonneg kn (Int.fract x)
  have n1 := absSum_nonneg kn (Int.fract y)
  have n2 := absSum_nonneg kn (Int.fract t)
  have L0 : 0 ≤ Lam := n0.trans b0
  calc absSum kn (Int.fract x) * absSum kn (Int.fract y) * absSum kn (Int.fract t) ≤ Lam * Lam * Lam :=
        mul_le_mul (mul_le_mul b0 b1 n1 L0) b2 n2 (mul_nonneg L0 L0)
    _ = Lam ^ 3 := by ring

/-- C81, in terms of the exact positions: for a field of magnitude up to `M`, each sample differs from the exact result by at most a relative error `rel` of the terms and the effect of the displacement. -/
theorem Contribution.forward {kn : Kern ℝ} {lam Lam : ℝ} (hk : Steady kn lam Lam) {F : Nat → Int → Int → Int → ℝ} {M : ℝ} (hM : ∀ c < 2, ∀ i j k, |F c i j k| ≤ M) {source : List ℝ}
    {weight ex et rel x y t o o' : ℝ} (hrel : 0 ≤ rel) (h : Contribution kn F source weight ex et rel x y t o o') :
    |o' - (o + sampleValue kn F source x y t * weight)| ≤ rel * (|o| + Lam ^ 3 * M * (|source.getD 0 0| + |source.getD 1 0|) * |weight|) +
      lam * Lam ^ 2 * M * (2 * ex + et) * (|source.getD 0 0| + |source.getD 1 0|) * |weight| := by
  obtain ⟨x', y', t', h1, h2, h3, h4⟩ := h
  have M0 : 0 ≤ M := (abs_nonneg _).trans (hM 0 (by decide) 0 0 0)
  have hl : ∀ c < 2, |interpAt kn (F c) x' y' t' - interpAt kn (F c) x y t| ≤ lam * Lam ^ 2 * M * (2 * ex + et) := by
    intro c hc
    refine (interpAt_lip hk (hM c hc) x' y' t' x y t).trans (mul_le_mul_of_nonneg_left (by linarith) ?_)
    have := hk.pos
    positivity
  have m0 := interpMag_bound hk (hM 0 (by decide)) x' y' t'
  have m1 := interpMag_bound hk (hM 1 (by decide)) x' y' t'
  have l0 := hl 0 (by decide)
  have l1 := hl 1 (by decide)
  set s0 := source.getD 0 0
  set s1 := source.getD 1 0
  have b1 : rel * (|o| + (interpMag kn (F 0) x' y' t' * |s0| + interpMag kn (F 1) x' y' t' * |s1|) * |weight|) ≤ rel * (|o| + Lam ^ 3 * M * (|s0| + |s1|) * |weight|) := by
    refine mul_le_mul_of_nonneg_left ?_ hrel
    have e : Lam ^ 3 * M * (|s0| + |s1|) * |weight| = (Lam ^ 3 * M * |s0| + Lam ^ 3 * M * |s1|) * |weight| := by ring
    rw [e]
    have := mul_le_mul_of_nonneg_right (add_le_add (mul_le_mul_of_nonneg_right m0 (abs_nonneg s0)) (mul_le_mul_of_nonneg_right m1 (abs_nonneg s1))) (abs_nonneg weight)
    linarith
  have b2 : |(interpAt kn (F 0) x' y' t' * s0 + interpAt kn (F 1) x' y' t' * s1) * weight - sampleValue kn F source x y t * weight| ≤
      lam * Lam ^ 2 * M * (2 * ex + et) * (|s0| + |s1|) * |weight| := by
    have e : (interpAt kn (F 0) x' y' t' * s0 + interpAt kn (F 1) x' y' t' * s1) * weight - sampleValue kn F source x y t * weight =
        ((interpAt kn (F 0) x' y' t' - interpAt kn (F 0) x y t) * s0 + (interpAt kn (F 1) x' y' t' - interpAt kn (F 1) x y t) * s1) * weight := by
      unfold sampleValue; ring
    rw [e, abs_mul]
    refine mul_le_mul_of_nonneg_right ?_ (abs_nonneg _)
    refine (abs_add_le _ _).trans ?_
    rw [abs_mul, abs_mul, mul_add]
    exact add_le_add (mul_le_mul_of_nonneg_right l0 (abs_nonneg _)) (mul_le_mul_of_nonneg_right l1 (abs_nonneg _))
  have t1 := abs_sub_le o' (o + (interpAt kn (F 0) x' y' t' * s0 + interpAt kn (F 1) x' y' t' * s1) * weight) (o + sampleValue kn F source x y t * weight)
  have e : o + (interpAt kn (F 0) x' y' t' * s0 + interpAt kn (F 1) x' y' t' * s1) * weight - (o + sampleValue kn F source x y t * weight) =
      (interpAt kn (F 0) x' y' t' * s0 + interpAt kn (F 1) x' y' t' * s1) * weight - sampleValue kn F source x y t * weight := by ring
  rw [e] at t1
  linarith

/-- The total error of a sample: `o` and `o'` are the values before and after, `v` is the exact inner product of source and interpolated field, `S` the sum of the magnitudes of the source,
    `M` the bound of the field. -/
def SampleError (rel size lip : ℝ) (S M weight o o' v : ℝ) : Prop :=
  |o' - (o + v * weight)| ≤ rel * (|o| + size * M * S * |weight|) + lip * M * S * |weight|

/-- C81, linear kernel: for a field of magnitude up to `M`, every sample that lies in the domain is off by at most the effect of sixteen roundings on the terms of the sum, plus the effect of the
    rounding of the positions (`u W` in space and the roundings of the time index), at the greatest slope of the interpolation, two `M` per step of the grid. (Partial: as above.) -/
theorem C81_linear_error_partial {σ : Type} {L : Library σ ℝ} {I : σ → Prop} {ms : List Meta} {F : Nat → Int → Int → Int → ℝ} (hL : Serves L I ms F)
    (hA : A.Rounds u) (hu1 : u ≤ 1) {B : Nat} (hB : A.Counts B) {grow : ℝ → ℝ} (hg : grow 0 = 0) (junk : Nat → ℝ) (oob : OOB) {x y ts dt : ℝ} (hx : 0 ≤ x ∧ x < 2 ^ 62)
    (hy : 0 ≤ y ∧ y < 2 ^ 62) (hts : 0 ≤ ts) (hdt : 0 < dt) {n : Nat} (hn : n < U64) (hmax : ∀ k < n, sampleInd A ts dt k < 2 ^ 62) (hc : ChunksOk B u 1 dt ms) {W : Nat} (hW : WithinWidth W ms)
    (hnull : NullLast ms x y (sampleInd A ts dt) n) (hoob : oob = .ignore ∨ ∀ k < n, ∃ m ∈ ms, InBox m.start m.stop (cell x y (sampleInd A ts dt k))) {M : ℝ}
    (hM : ∀ c < 2, ∀ i j k, |F c i j k| ≤ M) (source : List ℝ) (weight : ℝ) (out : List ℝ) (P : Nat) (hout : P + n ≤ out.length) (s : σ) (hs : I s) :
    accumulateF A L (linearF A) grow junk x y ts dt n source out P weight oob s = .abort ∨
    ∃ s' out' e, accumulateF A L (linearF A) grow junk x y ts dt n source out P weight oob s = .ok (s', out') ∧ I s' ∧ out'.length = out.length ∧ e ≤ n ∧
      (e < n → ∀ m ∈ ms, ¬ InBox m.start m.stop (cell x y (sampleInd A ts dt e))) ∧
      (∀ p, ¬ (P ≤ p ∧ p < P + e) → out'.getD p 0 = out.getD p 0) ∧
      ∀ k : Nat, k < e → SampleError ((1 + u) ^ 16 - 1) 1 (2 * (2 * (u * W) + (((1 + u) ^ 3 - 1) * (ts + k * dt) + ((1 + u) ^ 5 - 1) * W))) (|source.getD 0 0| + |source.getD 1 0|) M weight
        (out.getD (P + k) 0) (out'.getD (P + k) 0) (sampleValue linear F source x y (ts + k * dt)) := by
  have hu := hA.nonneg
  rcases C81_signal_accuracy_partial hL hA hu1 hB (linear_close hA) linear_usable.last hg junk oob hx hy hts hdt hn hmax hc hW hnull hoob source weight out P hout s hs with
    h | ⟨s', out', e, h1, h2, h3, h4, h5, h6, h7⟩
  · exact Or.inl h
  · refine Or.inr ⟨s', out', e, h1, h2, h3, h4, h5, h6, fun k hk => ?_⟩
    have hr : (0 : ℝ) ≤ (1 + u) ^ 16 - 1 := sub_nonneg.2 (one_le_pow₀ (by linarith))
    have h := (h7 k hk).forward linear_steady hM hr
    unfold SampleError
    refine h.trans (le_of_eq ?_)
    show ((1 + u) ^ 16 - 1) * _ + _ = _
    ring

/-- C81, Keys kernel (used by `SignalCalculator`): sixty-six roundings, and a slope of at most `4 (5/4)² M`. (Partial: as above.) -/
theorem C81_keys_error_partial {σ : Type} {L : Library σ ℝ} {I : σ → Prop} {ms : List Meta} {F : Nat → Int → Int → Int → ℝ} (hL : Serves L I ms F)
    (hA : A.Rounds u) (hu1 : u ≤ 1) {B : Nat} (hB : A.Counts B) {grow : ℝ → ℝ} (hg : grow 0 = 0) (junk : Nat → ℝ) (oob : OOB) {x y ts dt : ℝ} (hx : 0 ≤ x ∧ x < 2 ^ 62)
    (hy : 0 ≤ y ∧ y < 2 ^ 62) (hts : 0 ≤ ts) (hdt : 0 < dt) {n : Nat} (hn : n < U64) (hmax : ∀ k < n, sampleInd A ts dt k < 2 ^ 62) (hc : ChunksOk B u 2 dt ms) {W : Nat} (hW : WithinWidth W ms)
    (hnull : NullLast ms x y (sampleInd A ts dt) n) (hoob : oob = .ignore ∨ ∀ k < n, ∃ m ∈ ms, InBox m.start m.stop (cell x y (sampleInd A ts dt k))) {M : ℝ}
    (hM : ∀ c < 2, ∀ i j k, |F c i j k| ≤ M) (source : List ℝ) (weight : ℝ) (out : List ℝ) (P : Nat) (hout : P + n ≤ out.length) (s : σ) (hs : I s) :
    accumulateF A L (keysF A) grow junk x y ts dt n source out P weight oob s = .abort ∨
    ∃ s' out' e, accumulateF A L (keysF A) grow junk x y ts dt n source out P weight oob s = .ok (s', out') ∧ I s' ∧ out'.length = out.length ∧ e ≤ n ∧
      (e < n → ∀ m ∈ ms, ¬ InBox m.start m.stop (cell x y (sampleInd A ts dt e))) ∧
      (∀ p, ¬ (P ≤ p ∧ p < P + e) → out'.getD p 0 = out.getD p 0) ∧
      ∀ k : Nat, k < e → SampleError ((1 + u) ^ 66 - 1) 2 (25 / 4 * (2 * (u * W) + (((1 + u) ^ 3 - 1) * (ts + k * dt) + ((1 + u) ^ 5 - 1) * W))) (|source.getD 0 0| + |source.getD 1 0|) M weight
        (out.getD (P + k) 0) (out'.getD (P + k) 0) (sampleValue (keys (Real.sqrt 7)) F source x y (ts + k * dt)) := by
  have hu := hA.nonneg
  rcases C81_signal_accuracy_partial hL hA hu1 hB (keys_close hA) (keys_usable _).last hg junk oob hx hy hts hdt hn hmax hc hW hnull hoob source weight out P hout s hs with
    h | ⟨s', out', e, h1, h2, h3, h4, h5, h6, h7⟩
  · exact Or.inl h
  · refine Or.inr ⟨s', out', e, h1, h2, h3, h4, h5, h6, fun k hk => ?_⟩
    have hr : (0 : ℝ) ≤ (1 + u) ^ 66 - 1 := sub_nonneg.2 (one_le_pow₀ (by linarith))
    have h := (h7 k hk).forward keys_steady hM hr
    have M0 : 0 ≤ M := (abs_nonneg _).trans (hM 0 (by decide) 0 0 0)
    unfold SampleError
    refine h.trans (add_le_add (mul_le_mul_of_nonneg_left (add_le_add le_rfl ?_) hr) (le_of_eq ?_))
    · refine mul_le_mul_of_nonneg_right (mul_le_mul_of_nonneg_right (mul_le_mul_of_nonneg_right (by norm_num) M0) (by positivity)) (abs_nonneg _)
    · ring

/-! ### Example -/

/-- A library that consists of the chunk `wide`, with arbitrary content. -/
noncomputable def dataLib (data : List ℝ) : Library Unit ℝ where
  find _ p := .ok ((), @ite _ (InBox wide.start wide.stop p) (Classical.propDecidable _) (some wide) none)
  load _ m := .ok ((), m.shape.map (· + 2 * m.overlap), data)

/-- Its field. -/
noncomputable def dataField (data : List ℝ) (c : Nat) (i j k : Int) : ℝ :=
  component 2 (mkHdr 2 (wide.shape.map (· + 2 * wide.overlap))) data c (i - wide.start.getD 0 0 + wide.overlap) (j - wide.start.getD 1 0 + wide.overlap) (k - wide.start.getD 2 0 + wide.overlap)

theorem dataLib_serves {data : List ℝ} (hd : data.length = volume 2 (wide.shape.map (· + 2 * wide.overlap))) : Serves (dataLib data) (fun _ => True) [wide] (dataField data) where
  ok m hm := by
    rw [List.mem_singleton.1 hm]
    exact ⟨rfl, rfl, by decide +kernel, by decide +kernel, by decide +kernel, by decide +kernel⟩
  found s p m _ hm hb := by
    rw [List.mem_singleton.1 hm] at hb ⊢
    refine ⟨(), ?_, trivial⟩
    simp only [dataLib]
    rw [if_pos hb]
  missing s p _ _ _ h := by
    refine ⟨(), ?_, trivial⟩
    simp only [dataLib]
    rw [if_neg (h wide (by simp))]
  load s m _ hm _ := by
    rw [List.mem_singleton.1 hm]
    exact ⟨(), _, rfl, trivial, hd, fun c i j k _ _ _ => rfl⟩
  null m hm h := by
    rw [List.mem_singleton.1 hm] at h
    cases h

/-- The hypotheses of `C81_linear_error_partial` are met, in single precision: any content of the chunk, 500 samples from 17.1f on in steps of 0.1f, of which the later ones are outside of the domain. -/
example (data : List ℝ) (hd : data.length = volume 2 (wide.shape.map (· + 2 * wide.overlap))) (M : ℝ) (hM0 : 0 ≤ M) (hM : ∀ v ∈ data, |v| ≤ M) (out : List ℝ) (hout : out.length = 500) (junk : Nat → ℝ) :
    accumulateF singleA (dataLib data) (linearF singleA) id junk 0 (1 / 3) (8965325 / 2 ^ 19) (13421773 / 2 ^ 27) 500 [1, 2] out 0 1 .ignore () = .abort ∨
    ∃ s' out' e, accumulateF singleA (dataLib data) (linearF singleA) id junk 0 (1 / 3) (8965325 / 2 ^ 19) (13421773 / 2 ^ 27) 500 [1, 2] out 0 1 .ignore () = .ok (s', out') ∧
      ∀ k : Nat, k < e → SampleError ((1 + 1 / 2 ^ 24) ^ 16 - 1) 1
        (2 * (2 * (1 / 2 ^ 24 * 16) + (((1 + 1 / 2 ^ 24) ^ 3 - 1) * (8965325 / 2 ^ 19 + k * (13421773 / 2 ^ 27)) + ((1 + 1 / 2 ^ 24) ^ 5 - 1) * 16))) 3 M 1
        (out.getD k 0) (out'.getD k 0) (sampleValue linear (dataField data) [1, 2] 0 (1 / 3) (8965325 / 2 ^ 19 + k * (13421773 / 2 ^ 27))) := by
  have hst : wide.stop = [1, 1, 30] := by decide +kernel
  have hsh : wide.shape = [1, 1, 14] := by decide +kernel
  have hov : wide.overlap = 2 := by decide +kernel
  have h := C81_linear_error_partial (dataLib_serves hd) singleA_rounds (by norm_num) singleA_counts (grow := id) rfl junk .ignore (x := 0) (y := 1 / 3)
    (ts := 8965325 / 2 ^ 19) (dt := 13421773 / 2 ^ 27) (by norm_num) (by norm_num) (by norm_num) (by norm_num) (n := 500) (by decide +kernel) (by
      intro k hk
      have h := C79_positions singleA_rounds (8965325 / 2 ^ 19) (13421773 / 2 ^ 27) k
      have hk' : (k : ℝ) ≤ 500 := by exact_mod_cast hk.le
      have hk0 : (0 : ℝ) ≤ k := Nat.cast_nonneg k
      rw [abs_of_pos (by norm_num : (0 : ℝ) < 8965325 / 2 ^ 19), abs_of_nonneg (by positivity : (0 : ℝ) ≤ k * (13421773 / 2 ^ 27))] at h
      have h2 := (abs_le.1 h).2
      norm_num at h2 ⊢
      nlinarith) (by
      refine ⟨?_, ?_, ?_, ?_⟩
      · intro m hm; rw [List.mem_singleton.1 hm, hov]; decide
      · intro m hm d hd
        rw [List.mem_singleton.1 hm, hsh, hov]
        interval_cases d <;> norm_num
      · intro m hm d hd
        rw [List.mem_singleton.1 hm, hst, hov]
        interval_cases d <;> norm_num
      · intro m hm
        rw [List.mem_singleton.1 hm, hst]; norm_num) (W := 16) (by
      intro m hm d hd
      rw [List.mem_singleton.1 hm, hsh, hov]
      interval_cases d <;> decide) (by
      intro j k m m' _ _ hm _ _ _ hn
      rw [List.mem_singleton.1 hm] at hn
      cases hn) (Or.inl rfl) (M := M) (fun c _ i j k => component_le hM hM0 c _ _ _) [1, 2] 1 out 0 (by omega) () trivial
  rcases h with h | ⟨s', out', e, h1, -, -, -, -, -, h3⟩
  · exact Or.inl h
  · refine Or.inr ⟨s', out', e, h1, fun k hk => ?_⟩
    have h := h3 k hk
    rw [Nat.zero_add, show |([1, 2] : List ℝ).getD 0 0| + |([1, 2] : List ℝ).getD 1 0| = 3 by norm_num] at h
    simp only [one_div ((2 : ℝ) ^ 24)]
    exact_mod_cast h

end Verif.Green
