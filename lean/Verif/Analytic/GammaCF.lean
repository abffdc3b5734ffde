import Verif.Analytic.Gamma
import Mathlib.Tactic.Ring
import Mathlib.Tactic.FieldSimp
import Mathlib.Tactic.Linarith
import Mathlib.Tactic.Positivity
import Mathlib.Data.Nat.Factorial.Basic
/-
The continued fraction of the incomplete gamma function, for an integer `a = m + 1`: it ends, and its convergents enclose the value.
-/
namespace Verif.Analytic
open Verif

variable {K : Type} [Field K] [LinearOrder K] [IsStrictOrderedRing K]

/-- The integral of `exp (-z s) s ^ n (1 + s) ^ p` over the positive `s`. -/
def jInt (z : K) : Nat → Nat → K
  | n, 0 => n.factorial / z ^ (n + 1)
  | n, p + 1 => jInt z n p + jInt z (n + 1) p

theorem jInt_pos {z : K} (hz : 0 < z) : ∀ (p n : Nat), 0 < jInt z n p
  | 0, n => by
      unfold jInt
      have : (0 : K) < n.factorial := by exact_mod_cast n.factorial_pos
      positivity
  | p + 1, n => by
      unfold jInt
      have := jInt_pos hz p n
      have := jInt_pos hz p (n + 1)
      linarith

/-- Integration by parts. -/
theorem jInt_parts {z : K} (hz : 0 < z) : ∀ (p n : Nat), z * jInt z (n + 1) (p + 1) = (n + 1) * jInt z n (p + 1) + (p + 1) * jInt z (n + 1) p ∧ z * jInt z (n + 1) 0 = (n + 1) * jInt z n 0
  | 0, n => by
      have h : ∀ n, z * jInt z (n + 1) 0 = ((n : K) + 1) * jInt z n 0 := fun n => by
        unfold jInt
        rw [Nat.factorial_succ]
        push_cast
        field_simp
        ring
      refine ⟨?_, h n⟩
      show z * (jInt z (n + 1) 0 + jInt z (n + 1 + 1) 0) = (n + 1) * (jInt z n 0 + jInt z (n + 1) 0) + ((0 : Nat) + 1) * jInt z (n + 1) 0
      rw [mul_add, h n, h (n + 1)]
      push_cast
      ring
  | p + 1, n => by
      refine ⟨?_, (jInt_parts hz 0 n).2⟩
      have h1 := (jInt_parts hz p n).1
      have h2 := (jInt_parts hz p (n + 1)).1
      show z * (jInt z (n + 1) (p + 1) + jInt z (n + 1 + 1) (p + 1)) = (n + 1) * (jInt z n (p + 1) + jInt z (n + 1) (p + 1)) + ((p + 1 : Nat) + 1) * (jInt z (n + 1) p + jInt z (n + 1 + 1) p)
      rw [mul_add, h1, h2]
      show (_ : K) = _
      have e : jInt z (n + 1) (p + 1) = jInt z (n + 1) p + jInt z (n + 1 + 1) p := rfl
      rw [e]
      push_cast
      ring

theorem jInt_parts0 {z : K} (hz : 0 < z) : ∀ p : Nat, z * jInt z 0 (p + 1) = 1 + (p + 1) * jInt z 0 p ∧ z * jInt z 0 0 = 1
  | 0 => by
      have h : z * jInt z 0 0 = 1 := by unfold jInt; simp; field_simp
      refine ⟨?_, h⟩
      show z * (jInt z 0 0 + jInt z 1 0) = _
      rw [mul_add, h, (jInt_parts hz 0 0).2]
  | p + 1 => by
      refine ⟨?_, (jInt_parts0 hz 0).2⟩
      have h1 := (jInt_parts0 hz p).1
      have h2 := (jInt_parts hz p 0).1
      show z * (jInt z 0 (p + 1) + jInt z 1 (p + 1)) = 1 + ((p + 1 : Nat) + 1) * (jInt z 0 p + jInt z 1 p)
      rw [mul_add, h1, h2]
      have e : jInt z 0 (p + 1) = jInt z 0 p + jInt z 1 p := rfl
      rw [e]
      push_cast
      ring

/-- The third solution of the recurrence: `(-1)^n m! / (m - n)!` times the integral; `n` counts from 0 to `m`, then it is zero. -/
def eTerm (z : K) (m n : Nat) : K := if n ≤ m then (-1) ^ n * m.descFactorial n * jInt z n (m - n) else 0

theorem eTerm_sign {z : K} (hz : 0 < z) (m n : Nat) : 0 ≤ (-1) ^ n * eTerm z m n := by
  unfold eTerm
  split
  · have h1 := jInt_pos hz (m - n) n
    have h2 : (0 : K) ≤ m.descFactorial n := Nat.cast_nonneg _
    have e : (-1 : K) ^ n * ((-1) ^ n * m.descFactorial n * jInt z n (m - n)) = m.descFactorial n * jInt z n (m - n) := by
      rw [← mul_assoc, ← mul_assoc, ← mul_pow]
      norm_num
    rw [e]
    positivity
  · simp

theorem eTerm_zero {z : K} (m : Nat) : eTerm z m 0 = jInt z 0 m := by unfold eTerm; simp

theorem eTerm_one {z : K} (hz : 0 < z) (m : Nat) : eTerm z m 1 = (z - m) * jInt z 0 m - 1 := by
  unfold eTerm
  cases m with
  | zero =>
    have := (jInt_parts0 hz 0).2
    simp
    linarith
  | succ p =>
    have h := (jInt_parts0 hz p).1
    have e : jInt z 0 (p + 1) = jInt z 0 p + jInt z 1 p := rfl
    rw [if_pos (by omega)]
    simp only [Nat.add_sub_cancel, Nat.descFactorial_one]
    push_cast
    have e2 : jInt z 1 p = jInt z 0 (p + 1) - jInt z 0 p := by rw [e]; ring
    rw [e2, sub_mul, h]
    ring

theorem eTerm_step {z : K} (hz : 0 < z) (m n : Nat) (h : n ≤ m) :
    eTerm z m (n + 2) = (z - m + 2 * (n + 1)) * eTerm z m (n + 1) + (n + 1) * (m - n) * eTerm z m n := by
  unfold eTerm
  rcases Nat.lt_or_ge (n + 1) m with h1 | h1
  · obtain ⟨q, rfl⟩ : ∃ q, m = n + 1 + 1 + q := ⟨m - (n + 2), by omega⟩
    have a1 : n + 1 + 1 + q - (n + 2) = q := by omega
    have a2 : n + 1 + 1 + q - (n + 1) = q + 1 := by omega
    have a3 : n + 1 + 1 + q - n = q + 2 := by omega
    rw [if_pos (by omega), if_pos (by omega), if_pos (by omega), a1, a2, a3]
    have d1 : (n + 1 + 1 + q).descFactorial (n + 2) = (q + 1) * ((q + 2) * (n + 1 + 1 + q).descFactorial n) := by
      rw [Nat.descFactorial_succ, Nat.descFactorial_succ, a3, a2]
    have d2 : (n + 1 + 1 + q).descFactorial (n + 1) = (q + 2) * (n + 1 + 1 + q).descFactorial n := by
      rw [Nat.descFactorial_succ, a3]
    rw [d1, d2]
    have h2 := (jInt_parts hz q n).1
    have e1 : jInt z n (q + 2) = jInt z n (q + 1) + jInt z (n + 1) (q + 1) := rfl
    have e2 : jInt z (n + 1) (q + 1) = jInt z (n + 1) q + jInt z (n + 2) q := rfl
    have e3 : jInt z (n + 2) q = jInt z (n + 1) (q + 1) - jInt z (n + 1) q := by rw [e2]; ring
    rw [e1, e3]
    push_cast
    have h3 : ((-1 : K) ^ n * (n + 1 + 1 + q).descFactorial n * (q + 2)) * (z * jInt z (n + 1) (q + 1)) =
      ((-1 : K) ^ n * (n + 1 + 1 + q).descFactorial n * (q + 2)) * ((n + 1) * jInt z n (q + 1) + (q + 1) * jInt z (n + 1) q) := by rw [h2]
    ring_nf at h3 ⊢
    linarith
  · rw [if_neg (by omega)]
    rcases Nat.lt_or_ge n m with h2 | h2
    · obtain rfl : m = n + 1 := by omega
      rw [if_pos (by omega), if_pos (by omega), Nat.sub_self, Nat.add_sub_cancel_left]
      have d2 : (n + 1).descFactorial (n + 1) = (n + 1).descFactorial n := by
        rw [Nat.descFactorial_succ]; simp
      rw [d2]
      have h2 := (jInt_parts hz 0 n).2
      have e1 : jInt z n 1 = jInt z n 0 + jInt z (n + 1) 0 := rfl
      rw [e1]
      push_cast
      have h3 : ((-1 : K) ^ n * (n + 1).descFactorial n) * (z * jInt z (n + 1) 0) = ((-1 : K) ^ n * (n + 1).descFactorial n) * ((n + 1) * jInt z n 0) := by rw [h2]
      ring_nf at h3 ⊢
      linarith
    · obtain rfl : m = n := by omega
      rw [if_neg (by omega)]
      simp

/-! ### The loop -/

theorem cfLoop_mono {a tol : K} : ∀ (fuel : Nat) {A B C D x y c v : K} {n : Nat}, cfLoop a tol fuel A B C D x y n c = .ok v → cfLoop a tol (fuel + 1) A B C D x y n c = .ok v
  | 0, _, _, _, _, _, _, _, _, _, h => by cases h
  | fuel + 1, A, B, C, D, x, y, c, v, n, h => by
      unfold cfLoop at h ⊢
      obtain ⟨q, h1, h⟩ := Res.bind_eq_ok.1 h
      obtain ⟨e, h2, h⟩ := Res.bind_eq_ok.1 h
      refine Res.bind_eq_ok.2 ⟨q, h1, Res.bind_eq_ok.2 ⟨e, h2, ?_⟩⟩
      split
      · rwa [if_pos (by assumption)] at h
      · rw [if_neg (by assumption)] at h
        exact cfLoop_mono fuel h

/-- The state of the loop when round `k + 1` begins. -/
structure CfInv (z : K) (m k : Nat) (A2 A1 B2 B1 an bn : K) : Prop where
  eA2 : A2 = jInt z 0 m * B2 - eTerm z m k
  eA1 : A1 = jInt z 0 m * B1 - eTerm z m (k + 1)
  B2pos : 0 < B2
  B1pos : 0 < B1
  A2pos : 0 ≤ A2
  A1pos : 0 < A1
  ean : an = (k + 1) * (m - k)
  ebn : bn = z - m + 2 * (k + 1)

theorem CfInv.next {z : K} {m k : Nat} {A2 A1 B2 B1 an bn : K} (hz : (m : K) + 1 ≤ z) (h : CfInv z m k A2 A1 B2 B1 an bn) (hk : k ≤ m) :
    CfInv z m (k + 1) A1 (bn * A1 + an * A2) B1 (bn * B1 + an * B2) (an + ((m : K) + 1 - 2 * (k + 1 : Nat) - 1)) (bn + 2) := by
  have hm : (0 : K) ≤ m := Nat.cast_nonneg _
  have hz0 : 0 < z := by linarith
  have hkm : (k : K) ≤ m := by exact_mod_cast hk
  have hk0 : (0 : K) ≤ k := Nat.cast_nonneg _
  have hb : 0 < bn := by rw [h.ebn]; linarith
  have ha : 0 ≤ an := by rw [h.ean]; exact mul_nonneg (by linarith) (by linarith)
  refine ⟨h.eA1, ?_, h.B1pos, ?_, h.A1pos.le, ?_, ?_, ?_⟩
  · rw [h.eA1, h.eA2, eTerm_step hz0 m k hk, h.ean, h.ebn]; ring
  · have := mul_pos hb h.B1pos
    have := mul_nonneg ha h.B2pos.le
    linarith
  · have := mul_pos hb h.A1pos
    have := mul_nonneg ha h.A2pos
    linarith
  · rw [h.ean]; push_cast; ring
  · rw [h.ebn]; push_cast; ring

theorem enclose {f c c' tol : K} (hc : 0 < c') (hs : (f ≤ c ∧ c' ≤ f) ∨ (c ≤ f ∧ f ≤ c')) (h : |c' - c| / c' < tol) : |c' - f| ≤ tol * c' := by
  rw [div_lt_iff₀ hc] at h
  refine le_trans ?_ h.le
  rcases hs with ⟨a, b⟩ | ⟨a, b⟩
  · rw [abs_of_nonpos (by linarith), abs_of_nonpos (by linarith)]; linarith
  · rw [abs_of_nonneg (by linarith), abs_of_nonneg (by linarith)]; linarith

theorem sides {z f B B' : K} (hz : 0 < z) {m n : Nat} (hB : 0 < B) (hB' : 0 < B') :
    (f ≤ (f * B - eTerm z m n) / B ∧ (f * B' - eTerm z m (n + 1)) / B' ≤ f) ∨ ((f * B - eTerm z m n) / B ≤ f ∧ f ≤ (f * B' - eTerm z m (n + 1)) / B') := by
  have h1 := eTerm_sign hz m n
  have h2 := eTerm_sign hz m (n + 1)
  rcases neg_one_pow_eq_or K n with h | h
  · rw [pow_succ, h] at h2
    rw [h] at h1
    refine Or.inr ⟨?_, ?_⟩
    · rw [div_le_iff₀ hB]; linarith
    · rw [le_div_iff₀ hB']; linarith
  · rw [pow_succ, h] at h2
    rw [h] at h1
    refine Or.inl ⟨?_, ?_⟩
    · rw [le_div_iff₀ hB]; linarith
    · rw [div_le_iff₀ hB']; linarith

theorem cfLoop_ok {z tol : K} {m : Nat} (hz : (m : K) + 1 ≤ z) (htol : 0 < tol) : ∀ (r : Nat) {k : Nat} {A2 A1 B2 B1 an bn : K}, CfInv z m k A2 A1 B2 B1 an bn → m = k + r → 1 ≤ k →
    ∃ v, cfLoop ((m : K) + 1) tol (r + 1) A2 A1 B2 B1 an bn (k + 1) (A1 / B1) = .ok v ∧ 0 < v ∧ |v - jInt z 0 m| ≤ tol * v
  | r, k, A2, A1, B2, B1, an, bn, h, hr, hk => by
      have hm : (0 : K) ≤ m := Nat.cast_nonneg _
      have hz0 : 0 < z := by linarith
      have hn := h.next hz (by omega)
      have hpos : 0 < (bn * A1 + an * A2) / (bn * B1 + an * B2) := div_pos hn.A1pos hn.B1pos
      have hs : ∀ {c : K}, c = A1 / B1 → |(bn * A1 + an * A2) / (bn * B1 + an * B2) - c| / ((bn * A1 + an * A2) / (bn * B1 + an * B2)) < tol →
          |(bn * A1 + an * A2) / (bn * B1 + an * B2) - jInt z 0 m| ≤ tol * ((bn * A1 + an * A2) / (bn * B1 + an * B2)) := fun {c} hc he => by
        refine enclose hpos ?_ he
        have := sides (f := jInt z 0 m) hz0 (m := m) (n := k + 1) h.B1pos hn.B1pos
        rw [← h.eA1, ← hn.eA1, ← hc] at this
        exact this
      show ∃ v, Res.bind (fdiv _ _) _ = _ ∧ _
      unfold fdiv
      simp only [if_neg hn.B1pos.ne', Res.ok_bind, if_neg hpos.ne']
      split
      · exact ⟨_, rfl, hpos, hs rfl (by assumption)⟩
      · rename_i hlt
        cases r with
        | zero =>
          exfalso
          apply hlt
          have e1 : eTerm z m (k + 1) = 0 := by unfold eTerm; rw [if_neg (by omega)]
          have e2 : eTerm z m (k + 1 + 1) = 0 := by unfold eTerm; rw [if_neg (by omega)]
          have f1 := h.eA1
          have f2 := hn.eA1
          rw [e1, sub_zero] at f1
          rw [e2, sub_zero] at f2
          rw [f2, mul_div_assoc, div_self hn.B1pos.ne', f1, mul_div_assoc, div_self h.B1pos.ne']
          simpa using htol
        | succ r => exact cfLoop_ok hz htol r hn (by omega) (by omega)

/-- The continued fraction: it ends, and the result has the relative precision that was asked for. -/
theorem fraction_ok {z tol : K} {m : Nat} (hz : (m : K) + 1 ≤ z) (htol : 0 < tol) (htol1 : tol ≤ 1) :
    ∃ v, (∀ fuel, m + 2 ≤ fuel → cfLoop ((m : K) + 1) tol fuel 0 1 1 (z - ((m : K) + 1) + 1) ((m : K) + 1 - 1) (z - ((m : K) + 1) + 1 + 2) 1 0 = .ok v) ∧
      0 < v ∧ |v - jInt z 0 m| ≤ tol * v := by
  have hm : (0 : K) ≤ m := Nat.cast_nonneg _
  have hz0 : 0 < z := by linarith
  have h0 : CfInv z m 0 0 1 1 (z - ((m : K) + 1) + 1) ((m : K) + 1 - 1) (z - ((m : K) + 1) + 1 + 2) := by
    refine ⟨?_, ?_, one_pos, by linarith, le_refl _, one_pos, by push_cast; ring, by push_cast; ring⟩
    · rw [eTerm_zero]; ring
    · rw [eTerm_one hz0]; ring
  generalize (z - ((m : K) + 1) + 1) = B1 at *
  generalize ((m : K) + 1 - 1) = an at *
  generalize B1 + 2 = bn at *
  have hn := h0.next hz (by omega)
  have hpos : 0 < (bn * 1 + an * 0) / (bn * B1 + an * 1) := div_pos hn.A1pos hn.B1pos
  suffices H : ∃ v, cfLoop ((m : K) + 1) tol (m + 2) 0 1 1 B1 an bn 1 0 = .ok v ∧ 0 < v ∧ |v - jInt z 0 m| ≤ tol * v by
    obtain ⟨v, h1, h2⟩ := H
    refine ⟨v, fun fuel hf => ?_, h2⟩
    obtain ⟨k, rfl⟩ := Nat.exists_eq_add_of_le hf
    clear hf
    induction k with
    | zero => exact h1
    | succ k ih => exact cfLoop_mono _ ih
  have first : ∀ fuel, cfLoop ((m : K) + 1) tol (fuel + 1) 0 1 1 B1 an bn 1 0 =
      cfLoop ((m : K) + 1) tol fuel 1 (bn * 1 + an * 0) B1 (bn * B1 + an * 1) (an + ((m : K) + 1 - 2 * (1 : Nat) - 1)) (bn + 2) 2 ((bn * 1 + an * 0) / (bn * B1 + an * 1)) := fun fuel => by
    conv => lhs; unfold cfLoop
    unfold fdiv
    simp only [if_neg hn.B1pos.ne', Res.ok_bind, if_neg hpos.ne']
    rw [if_neg]
    rw [sub_zero, abs_of_pos hpos, div_self hpos.ne']
    linarith
  rw [first]
  rcases Nat.eq_zero_or_pos m with rfl | hm1
  · -- one more round
    have e1 : eTerm z 0 1 = 0 := by unfold eTerm; rw [if_neg (by omega)]
    have han : an = 0 := by rw [h0.ean]; simp
    have hbn : bn = z + 2 := by rw [h0.ebn]; push_cast; ring
    have hz1 : 1 ≤ z := by simpa using hz
    subst han
    have hB1 := h0.B1pos
    have hq : 0 < (bn + 2) * bn - 2 := by rw [hbn]; nlinarith
    have hnext : ((bn + 2) * (bn * 1 + 0 * 0) + (0 + (((0 : Nat) : K) + 1 - 2 * (1 : Nat) - 1)) * 1) / ((bn + 2) * (bn * B1 + 0 * 1) + (0 + (((0 : Nat) : K) + 1 - 2 * (1 : Nat) - 1)) * B1) = 1 / B1 := by
      have e : (bn + 2) * (bn * B1 + 0 * 1) + (0 + (((0 : Nat) : K) + 1 - 2 * (1 : Nat) - 1)) * B1 = ((bn + 2) * bn - 2) * B1 := by push_cast; ring
      have e' : (bn + 2) * (bn * 1 + 0 * 0) + (0 + (((0 : Nat) : K) + 1 - 2 * (1 : Nat) - 1)) * 1 = (bn + 2) * bn - 2 := by push_cast; ring
      rw [e, e', div_mul_eq_div_div, div_self hq.ne']
    have hden : (bn + 2) * (bn * B1 + 0 * 1) + (0 + (((0 : Nat) : K) + 1 - 2 * (1 : Nat) - 1)) * B1 ≠ 0 := by
      have e : (bn + 2) * (bn * B1 + 0 * 1) + (0 + (((0 : Nat) : K) + 1 - 2 * (1 : Nat) - 1)) * B1 = ((bn + 2) * bn - 2) * B1 := by push_cast; ring
      rw [e]; positivity
    have hc : (bn * 1 + 0 * 0) / (bn * B1 + 0 * 1) = 1 / B1 := by
      have : bn ≠ 0 := by rw [hbn]; linarith
      rw [mul_one, mul_zero, add_zero, mul_one, add_zero, div_mul_eq_div_div, div_self this]
    have hf : jInt z 0 0 = 1 / B1 := by
      have := h0.eA1
      rw [e1, sub_zero] at this
      rw [eq_div_iff hB1.ne', ← this]
    have hi : 0 < 1 / B1 := by positivity
    refine ⟨1 / B1, ?_, hi, ?_⟩
    · rw [hc]
      show cfLoop _ tol (0 + 1) _ _ _ _ _ _ _ _ = _
      unfold cfLoop fdiv
      simp only [if_neg hden, Res.ok_bind, hnext, if_neg hi.ne', sub_self, abs_zero, zero_div, if_pos htol]
    · rw [hf]; simp; positivity
  · obtain ⟨v, h1, h2⟩ := cfLoop_ok hz htol (m - 1) hn (by omega) (le_refl _)
    have e : m + 1 = m - 1 + 1 + 1 := by omega
    rw [e]
    exact ⟨v, cfLoop_mono _ h1, h2⟩

end Verif.Analytic
