import Verif.Shower.Model
import Mathlib.Algebra.Order.Field.Basic
import Mathlib.Algebra.Order.Archimedean.Basic
import Mathlib.Algebra.Order.Field.Rat
import Mathlib.Tactic.Ring
import Mathlib.Tactic.Linarith
import Mathlib.Tactic.NormNum
/-
C51 (shower profiles index their tables in bounds and nearest-energy selection is optimal).
-/
namespace Verif.Shower
open Verif

variable {K : Type}

/-! ### Specification -/

/-- Position, time and grammage passed after `k` steps. -/
def posAt (N : Num K) (s : Setup K) : Nat → Pos K
  | 0 => s.start
  | k + 1 => (posAt N s k).move N s.step

def timeAt (N : Num K) (s : Setup K) : Nat → K
  | 0 => N.zero
  | k + 1 => N.add (timeAt N s k) s.dt

def gramAt (N : Num K) (s : Setup K) : Nat → K
  | 0 => N.zero
  | k + 1 => N.add (gramAt N s k) (N.mul (s.density (posAt N s k)) s.ds)

/-- After `n` steps, but not earlier, the grammage of the end of the profile is reached. -/
def EndsAfter (N : Num K) (s : Setup K) (n : Nat) : Prop :=
  ∃ max, s.profile.grammage.getLast? = some max ∧ N.lt (gramAt N s n) max = false ∧ ∀ k < n, N.lt (gramAt N s k) max = true

/-- What is used of the arithmetic of `double`: products commute and `<` is asymmetric. -/
structure Num.Ok (N : Num K) : Prop where
  comm : ∀ a b, N.mul a b = N.mul b a
  asymm : ∀ a b, N.lt a b = true → N.lt b a = false

/-! ### Proof -/

theorem at?_ok {v : List K} {i : Nat} (h : i < v.length) : at? v i = .ok v[i] := by
  unfold at?
  rw [List.getElem?_eq_getElem h]

variable {N : Num K} {s : Setup K}

theorem count_iff {max : K} : ∀ (fuel k n : Nat), count N s max fuel (gramAt N s k) (posAt N s k) k = some n →
    k ≤ n ∧ N.lt (gramAt N s n) max = false ∧ ∀ j, k ≤ j → j < n → N.lt (gramAt N s j) max = true
  | 0, _, _, h => by cases h
  | fuel + 1, k, n, h => by
      unfold count at h
      by_cases hl : N.lt (gramAt N s k) max = true
      · rw [if_pos hl] at h
        obtain ⟨h1, h2, h3⟩ := count_iff fuel (k + 1) n h
        refine ⟨by omega, h2, fun j hj hn => ?_⟩
        rcases Nat.eq_or_lt_of_le hj with rfl | hj
        · exact hl
        · exact h3 j hj hn
      · rw [if_neg hl] at h
        injection h with h
        subst h
        exact ⟨Nat.le_refl _, by simpa using hl, fun j h1 h2 => by omega⟩

theorem count_of {max : K} {n : Nat} (h1 : N.lt (gramAt N s n) max = false) (h2 : ∀ j < n, N.lt (gramAt N s j) max = true) : ∀ (m k : Nat), k + m = n →
    count N s max (m + 1) (gramAt N s k) (posAt N s k) k = some n
  | 0, k, hk => by
      have : k = n := by omega
      subst this
      unfold count
      rw [if_neg (by simp [h1])]
  | m + 1, k, hk => by
      unfold count
      rw [if_pos (h2 k (by omega))]
      exact count_of h1 h2 m (k + 1) (by omega)

theorem advance_ok {gr : List K} {g : K} (hlast : ∀ x, gr.getLast? = some x → N.lt x g = false) : ∀ (r i : Nat), i < gr.length → gr.length ≤ r + i →
    ∃ x, gr[advance N gr g r i]? = some x ∧ N.lt x g = false ∧ i ≤ advance N gr g r i ∧ ∀ j y, i ≤ j → j < advance N gr g r i → gr[j]? = some y → N.lt y g = true
  | 0, i, hi, hr => by omega
  | r + 1, i, hi, hr => by
      unfold advance
      rw [List.getElem?_eq_getElem hi]
      simp only
      by_cases hl : N.lt gr[i] g = true
      · rw [if_pos hl]
        have hi' : i + 1 < gr.length := by
          rcases Nat.lt_or_ge (i + 1) gr.length with h | h
          · exact h
          · have : gr.getLast? = some gr[i] := by
              rw [List.getLast?_eq_getElem?, show gr.length - 1 = i by omega, List.getElem?_eq_getElem hi]
            rw [hlast _ this] at hl
            cases hl
        obtain ⟨x, h1, h2, h3, h4⟩ := advance_ok hlast r (i + 1) hi' (by omega)
        refine ⟨x, h1, h2, by omega, fun j y hj hlt hy => ?_⟩
        rcases Nat.eq_or_lt_of_le hj with rfl | hj
        · rw [List.getElem?_eq_getElem hi] at hy
          injection hy with hy
          rw [← hy]; exact hl
        · exact h4 j y hj hlt hy
      · rw [if_neg hl]
        exact ⟨gr[i], List.getElem?_eq_getElem hi, by simpa using hl, Nat.le_refl _, fun j y h1 h2 => by omega⟩

/-- All entries before entry `i` are below the grammage `g`. -/
def Below (N : Num K) (s : Setup K) (g : K) (i : Nat) : Prop := ∀ j y, j < i → s.profile.grammage[j]? = some y → N.lt y g = true

theorem chargeAt_ok {g : K} {i : Nat} (hl : s.profile.charge.length = s.profile.grammage.length) (hi : i < s.profile.grammage.length) : ∃ c, chargeAt N s g i = .ok c := by
  unfold chargeAt
  by_cases h0 : i = 0
  · rw [if_pos h0, at?_ok (by omega)]
    exact ⟨_, rfl⟩
  · rw [if_neg h0, at?_ok (by omega), at?_ok (by omega), at?_ok (by omega), at?_ok (by omega)]
    exact ⟨_, rfl⟩

theorem points_ok (hN : N.Ok) (hl : s.profile.charge.length = s.profile.grammage.length) {n : Nat} (hend : EndsAfter N s n) : ∀ (m k i : Nat) (c : K), k + m + 1 = n →
    i < s.profile.grammage.length →
    ∃ ps, points N s m ⟨timeAt N s k, posAt N s k, c⟩ (gramAt N s k) i = .ok ps ∧ ps.length = m ∧
      ∀ j q, ps[j]? = some q → q.t = timeAt N s (k + j + 1) ∧ q.pos = posAt N s (k + j + 1) ∧
        ∃ i' x, s.profile.grammage[i']? = some x ∧ N.lt x (gramAt N s (k + j + 1)) = false ∧ chargeAt N s (gramAt N s (k + j + 1)) i' = .ok q.ce ∧
          ((∀ y a, N.lt y (gramAt N s a) = true → N.lt y (gramAt N s (a + 1)) = true) → Below N s (gramAt N s k) i → Below N s (gramAt N s (k + j + 1)) i')
  | 0, k, i, c, _, _ => ⟨[], rfl, rfl, fun j q h => by simp at h⟩
  | m + 1, k, i, c, hk, hi => by
      have hg : N.add (gramAt N s k) (N.mul s.ds (s.density (posAt N s k))) = gramAt N s (k + 1) := by
        show _ = N.add (gramAt N s k) (N.mul (s.density (posAt N s k)) s.ds)
        rw [hN.comm]
      obtain ⟨max, hm, he, hb⟩ := hend
      have hlast : ∀ x, s.profile.grammage.getLast? = some x → N.lt x (gramAt N s (k + 1)) = false := by
        intro x hx
        rw [hm] at hx
        injection hx with hx
        subst hx
        exact hN.asymm _ _ (hb (k + 1) (by omega))
      obtain ⟨x, a1, a2, a3, a4⟩ := advance_ok (N := N) hlast s.profile.grammage.length i hi (by omega)
      generalize hi' : advance N s.profile.grammage (gramAt N s (k + 1)) s.profile.grammage.length i = i' at a1 a3 a4
      have hlt : i' < s.profile.grammage.length := by
        rcases Nat.lt_or_ge i' s.profile.grammage.length with h | h
        · exact h
        · rw [List.getElem?_eq_none (by omega)] at a1; cases a1
      obtain ⟨c', hc'⟩ := chargeAt_ok (N := N) (g := gramAt N s (k + 1)) hl hlt
      obtain ⟨ps, b1, b2, b3⟩ := points_ok hN hl ⟨max, hm, he, hb⟩ m (k + 1) i' c' (by omega) hlt
      have hbel : (∀ y a, N.lt y (gramAt N s a) = true → N.lt y (gramAt N s (a + 1)) = true) → Below N s (gramAt N s k) i → Below N s (gramAt N s (k + 1)) i' := by
        intro hmono hbel j y hj hy
        rcases Nat.lt_or_ge j i with h | h
        · exact hmono _ _ (hbel j y h hy)
        · exact a4 j y h hj hy
      refine ⟨⟨timeAt N s (k + 1), posAt N s (k + 1), c'⟩ :: ps, ?_, by simp [b2], ?_⟩
      · simp only [points]
        rw [hg, hi', hc']
        simp only [Res.ok_bind]
        rw [show N.add (timeAt N s k) s.dt = timeAt N s (k + 1) from rfl, show (posAt N s k).move N s.step = posAt N s (k + 1) from rfl, b1]
        rfl
      · intro j q hq
        cases j with
        | zero =>
          have : (⟨timeAt N s (k + 1), posAt N s (k + 1), c'⟩ : Point K) = q := by simpa using hq
          subst this
          exact ⟨rfl, rfl, i', x, a1, a2, hc', hbel⟩
        | succ j =>
          obtain ⟨d1, d2, i2, x2, d3, d4, d5, d6⟩ := b3 j q (by simpa using hq)
          have e : k + 1 + j + 1 = k + (j + 1) + 1 := by omega
          rw [e] at d1 d2 d4 d5 d6
          exact ⟨d1, d2, i2, x2, d3, d4, d5, fun hmono hb' => d6 hmono (hbel hmono hb')⟩

theorem getShower_ok (hN : N.Ok) (hl : s.profile.charge.length = s.profile.grammage.length) {n : Nat} (hend : EndsAfter N s n) (h0 : 0 < n) (hn : n < 2 ^ 31) (fuel : Nat) (hf : n < fuel) :
    ∃ ps c0, getShower N fuel s = .ok ps ∧ ps.length = n ∧ s.profile.charge[0]? = some c0 ∧ ps[0]? = some ⟨N.zero, s.start, c0⟩ ∧
      ∀ k q, ps[k]? = some q → q.t = timeAt N s k ∧ q.pos = posAt N s k ∧ (0 < k →
        ∃ i' x, s.profile.grammage[i']? = some x ∧ N.lt x (gramAt N s k) = false ∧ chargeAt N s (gramAt N s k) i' = .ok q.ce ∧
          ((∀ y a, N.lt y (gramAt N s a) = true → N.lt y (gramAt N s (a + 1)) = true) → Below N s (gramAt N s k) i')) := by
  obtain ⟨max, hm, he, hb⟩ := hend
  have hne : 0 < s.profile.grammage.length := by
    rcases Nat.eq_zero_or_pos s.profile.grammage.length with h | h
    · have := List.eq_nil_of_length_eq_zero h
      rw [this] at hm; cases hm
    · exact h
  have hmax : at? s.profile.grammage (s.profile.grammage.length - 1) = .ok max := by
    rw [List.getLast?_eq_getElem?] at hm
    unfold at?
    rw [hm]
  have hcount : count N s max fuel N.zero s.start 0 = some n := by
    have h1 : count N s max (n + 1) (gramAt N s 0) (posAt N s 0) 0 = some n := count_of he hb n 0 (by omega)
    -- more fuel does not matter
    have hmono : ∀ (f f' : Nat) (g : K) (p : Pos K) (a b : Nat), f ≤ f' → count N s max f g p a = some b → count N s max f' g p a = some b := by
      intro f
      induction f with
      | zero => intro f' g p a b _ h; cases h
      | succ f ih =>
        intro f' g p a b hle h
        obtain ⟨f', rfl⟩ : ∃ x, f' = x + 1 := ⟨f' - 1, by omega⟩
        unfold count at h ⊢
        by_cases hl : N.lt g max = true
        · rw [if_pos hl] at h ⊢
          exact ih f' _ _ _ _ (by omega) h
        · rw [if_neg hl] at h ⊢
          exact h
    exact hmono _ _ _ _ _ _ (by omega) h1
  obtain ⟨ps, b1, b2, b3⟩ := points_ok hN hl ⟨max, hm, he, hb⟩ (n - 1) 0 0 (s.profile.charge[0]'(by omega)) (by omega) hne
  refine ⟨⟨N.zero, s.start, s.profile.charge[0]'(by omega)⟩ :: ps, s.profile.charge[0]'(by omega), ?_, by simp [b2]; omega, List.getElem?_eq_getElem _, rfl, ?_⟩
  · unfold getShower
    rw [hmax]
    simp only [Res.ok_bind]
    rw [hcount]
    simp only
    rw [if_neg (by omega), at?_ok (by omega)]
    simp only [Res.ok_bind]
    have b1' : points N s (n - 1) ⟨N.zero, s.start, s.profile.charge[0]'(by omega)⟩ N.zero 0 = .ok ps := b1
    rw [b1']
    rfl
  · intro k q hq
    cases k with
    | zero =>
      have : (⟨N.zero, s.start, s.profile.charge[0]'(by omega)⟩ : Point K) = q := by simpa using hq
      subst this
      exact ⟨rfl, rfl, fun h => by omega⟩
    | succ k =>
      obtain ⟨d1, d2, i2, x2, d3, d4, d5, d6⟩ := b3 k q (by simpa using hq)
      rw [show 0 + k + 1 = k + 1 by omega] at d1 d2 d4 d5 d6
      exact ⟨d1, d2, fun _ => ⟨i2, x2, d3, d4, d5, fun hmono => d6 hmono (fun j y hj => by omega)⟩⟩

/-- **C51.** Whatever the arithmetic (commutative products, asymmetric `<`: this includes IEEE arithmetic), the density, the steps and the profile (with as many charges as
    grammages): if the end of the profile is reached after `n` steps, `0 < n < 2^31`, then all accesses to the profile are in bounds and there are `n` points, one for each step. -/
theorem C51_in_bounds (N : Num K) (hN : N.Ok) (s : Setup K) (hl : s.profile.charge.length = s.profile.grammage.length) {n : Nat} (hend : EndsAfter N s n) (h0 : 0 < n) (hn : n < 2 ^ 31)
    (fuel : Nat) (hf : n < fuel) :
    ∃ ps, getShower N fuel s = .ok ps ∧ ps.length = n ∧ ∀ k q, ps[k]? = some q → q.t = timeAt N s k ∧ q.pos = posAt N s k := by
  obtain ⟨ps, c0, h1, h2, _, _, h3⟩ := getShower_ok hN hl hend h0 hn fuel hf
  exact ⟨ps, h1, h2, fun k q hq => ⟨(h3 k q hq).1, (h3 k q hq).2.1⟩⟩

/-- The segments of a track: `n - 1` pieces from point to point. -/
theorem segments_get (cv : Pos K → Pos K) (ct cc : K → K) : ∀ (ps : List (Point K)), (segments cv ct cc ps).length = ps.length - 1 ∧
    ∀ k sg, (segments cv ct cc ps)[k]? = some sg → ∃ a b, ps[k]? = some a ∧ ps[k + 1]? = some b ∧ sg = ⟨cv a.pos, cv b.pos, ct a.t, ct b.t, cc a.ce⟩
  | [] => ⟨rfl, fun k sg h => by simp [segments] at h⟩
  | [a] => ⟨rfl, fun k sg h => by simp [segments] at h⟩
  | a :: b :: l => by
      obtain ⟨h1, h2⟩ := segments_get cv ct cc (b :: l)
      refine ⟨by simp only [segments, List.length_cons, h1]; omega, fun k sg h => ?_⟩
      cases k with
      | zero =>
        have : (⟨cv a.pos, cv b.pos, ct a.t, ct b.t, cc a.ce⟩ : Segment K) = sg := by simpa [segments] using h
        exact ⟨a, b, rfl, rfl, this.symm⟩
      | succ k =>
        obtain ⟨a', b', e1, e2, e3⟩ := h2 k sg (by simpa [segments] using h)
        exact ⟨a', b', by simpa using e1, by simpa using e2, e3⟩

/-- **C51.** The track consists of `n - 1` segments, each of which begins where and when the one before ended; it begins at the start position, and segment `k` leads from the
    position after `k` steps to the position after `k + 1` steps. -/
theorem C51_contiguous (N : Num K) (hN : N.Ok) (s : Setup K) (hl : s.profile.charge.length = s.profile.grammage.length) {n : Nat} (hend : EndsAfter N s n) (h0 : 0 < n) (hn : n < 2 ^ 31)
    (fuel : Nat) (hf : n < fuel) (cv : Pos K → Pos K) (ct cc : K → K) :
    ∃ sgs, fillTracks N cv ct cc fuel s = .ok sgs ∧ sgs.length = n - 1 ∧
      (∀ k a b, sgs[k]? = some a → sgs[k + 1]? = some b → a.p1 = b.p0 ∧ a.t1 = b.t0) ∧
      ∀ k a, sgs[k]? = some a → a.p0 = cv (posAt N s k) ∧ a.p1 = cv (posAt N s (k + 1)) ∧ a.t0 = ct (timeAt N s k) ∧ a.t1 = ct (timeAt N s (k + 1)) := by
  obtain ⟨ps, h1, h2, h3⟩ := C51_in_bounds N hN s hl hend h0 hn fuel hf
  obtain ⟨g1, g2⟩ := segments_get cv ct cc ps
  have key : ∀ k a, (segments cv ct cc ps)[k]? = some a → a.p0 = cv (posAt N s k) ∧ a.p1 = cv (posAt N s (k + 1)) ∧ a.t0 = ct (timeAt N s k) ∧ a.t1 = ct (timeAt N s (k + 1)) := by
    intro k a ha
    obtain ⟨p, q, e1, e2, rfl⟩ := g2 k a ha
    obtain ⟨t1, p1⟩ := h3 k p e1
    obtain ⟨t2, p2⟩ := h3 (k + 1) q e2
    exact ⟨by rw [p1], by rw [p2], by rw [t1], by rw [t2]⟩
  refine ⟨segments cv ct cc ps, by unfold fillTracks; rw [h1]; rfl, by rw [g1, h2], fun k a b ha hb => ?_, key⟩
  obtain ⟨_, x2, _, x4⟩ := key k a ha
  obtain ⟨y1, _, y3, _⟩ := key (k + 1) b hb
  exact ⟨by rw [x2, y1], by rw [x4, y3]⟩

/-! ### Exact arithmetic -/

section Exact

variable [Field K] [LinearOrder K] [IsStrictOrderedRing K]

/-- Exact arithmetic in an ordered field. -/
def exact' (K : Type) [Field K] [LinearOrder K] : Num K := ⟨0, (· + ·), (· - ·), (· * ·), (· / ·), fun a b => decide (a < b)⟩

theorem exact_ok : (exact' K).Ok := ⟨fun a b => mul_comm a b, fun a b h => by
  have h' : a < b := by simpa [exact'] using h
  simpa [exact'] using le_of_lt h'⟩

/-- `v` is the value at `g` of the function that is linear between the entries of the profile (and constant before the first one). -/
def Interpolated (p : Profile K) (g v : K) : Prop :=
  (∃ g0 c0, p.grammage[0]? = some g0 ∧ p.charge[0]? = some c0 ∧ g ≤ g0 ∧ v = c0) ∨
  ∃ i g0 g1 c0 c1, p.grammage[i]? = some g0 ∧ p.grammage[i + 1]? = some g1 ∧ p.charge[i]? = some c0 ∧ p.charge[i + 1]? = some c1 ∧ g0 < g ∧ g ≤ g1 ∧
    v = c0 + (c1 - c0) * ((g - g0) / (g1 - g0))

theorem timeAt_exact (s : Setup K) (k : Nat) : timeAt (exact' K) s k = k * s.dt := by
  induction k with
  | zero => simp [timeAt, exact']
  | succ k ih =>
    show timeAt (exact' K) s k + s.dt = _
    rw [ih]; push_cast; ring

/-- **C51.** In exact arithmetic with non-negative density and step: the `k`-th point is at time `k * dt`, and its charge excess, for `k > 0`, is the scaled interpolation of the
    profile at the grammage passed so far. The first point has the charge excess of the first entry of the profile, without the scaling (`_partial`: the scaling is missing there,
    see `C51_first_point_not_scaled`). -/
theorem C51_interpolation_partial (s : Setup K) (hl : s.profile.charge.length = s.profile.grammage.length) (hd : ∀ p, 0 ≤ s.density p) (hs : 0 ≤ s.ds) {n : Nat} (hend : EndsAfter (exact' K) s n)
    (h0 : 0 < n) (hn : n < 2 ^ 31) (fuel : Nat) (hf : n < fuel) :
    ∃ ps, getShower (exact' K) fuel s = .ok ps ∧ ps.length = n ∧
      ∀ (k : Nat) q, ps[k]? = some q → q.t = (k : K) * s.dt ∧ q.pos = posAt (exact' K) s k ∧
        (0 < k → ∃ v, Interpolated s.profile (gramAt (exact' K) s k) v ∧ q.ce = v * s.scaling) ∧ (k = 0 → s.profile.charge[0]? = some q.ce) := by
  obtain ⟨ps, c0, h1, h2, hc0, hp0, h3⟩ := getShower_ok exact_ok hl hend h0 hn fuel hf
  refine ⟨ps, h1, h2, fun k q hq => ?_⟩
  obtain ⟨d1, d2, d3⟩ := h3 k q hq
  refine ⟨by rw [d1, timeAt_exact], d2, fun hk => ?_, fun hk => ?_⟩
  · obtain ⟨i, x, e1, e2, e3, e4⟩ := d3 hk
    have hb := e4 (by
      intro y a h
      have h' : y < gramAt (exact' K) s a := by simpa [exact'] using h
      have h'' : gramAt (exact' K) s a ≤ gramAt (exact' K) s (a + 1) := by
        show _ ≤ gramAt (exact' K) s a + s.density (posAt (exact' K) s a) * s.ds
        have := mul_nonneg (hd (posAt (exact' K) s a)) hs
        linarith
      have : y < gramAt (exact' K) s (a + 1) := lt_of_lt_of_le h' h''
      simpa [exact'] using this)
    have hx : gramAt (exact' K) s k ≤ x := by simpa [exact'] using e2
    have hi : i < s.profile.grammage.length := by
      rcases Nat.lt_or_ge i s.profile.grammage.length with h | h
      · exact h
      · rw [List.getElem?_eq_none (by omega)] at e1; cases e1
    unfold chargeAt at e3
    by_cases hi0 : i = 0
    · subst hi0
      rw [if_pos rfl, at?_ok (by omega)] at e3
      have hce : s.profile.charge[0]'(by omega) * s.scaling = q.ce := Res.ok.inj e3
      exact ⟨_, Or.inl ⟨x, _, e1, List.getElem?_eq_getElem (by omega), hx, rfl⟩, hce.symm⟩
    · obtain ⟨j, rfl⟩ : ∃ j, i = j + 1 := ⟨i - 1, by omega⟩
      rw [if_neg hi0, at?_ok (by omega), at?_ok (by omega), at?_ok (by omega), at?_ok (by omega)] at e3
      have e3' : (s.profile.charge[j]'(by omega) + (s.profile.charge[j + 1]'(by omega) - s.profile.charge[j]'(by omega)) *
          ((gramAt (exact' K) s k - s.profile.grammage[j]'(by omega)) / (s.profile.grammage[j + 1]'(by omega) - s.profile.grammage[j]'(by omega)))) * s.scaling = q.ce := Res.ok.inj e3
      have hlow : s.profile.grammage[j]'(by omega) < gramAt (exact' K) s k := by
        have := hb j _ (by omega) (List.getElem?_eq_getElem (by omega))
        simpa [exact'] using this
      have hxe : s.profile.grammage[j + 1]'(by omega) = x := by
        rw [List.getElem?_eq_getElem hi] at e1
        injection e1
      exact ⟨_, Or.inr ⟨j, _, _, _, _, List.getElem?_eq_getElem (by omega), List.getElem?_eq_getElem (by omega), List.getElem?_eq_getElem (by omega), List.getElem?_eq_getElem (by omega),
        hlow, by rw [hxe]; exact hx, rfl⟩, e3'.symm⟩
  · subst hk
    rw [hp0] at hq
    injection hq with hq
    rw [← hq]; exact hc0

/-- **C51.** The loop ends if the density is bounded from below: there is a number of steps after which the end of the profile is reached, and it is positive if the profile does
    not end at or before 0. -/
theorem C51_ends [Archimedean K] (s : Setup K) {max ρ : K} (hm : s.profile.grammage.getLast? = some max) (hmax : 0 < max) (hρ : 0 < ρ) (hd : ∀ p, ρ ≤ s.density p) (hs : 0 < s.ds) :
    ∃ n, 0 < n ∧ EndsAfter (exact' K) s n := by
  have hge : ∀ k : Nat, (k : K) * (ρ * s.ds) ≤ gramAt (exact' K) s k := by
    intro k
    induction k with
    | zero => simp [gramAt, exact']
    | succ k ih =>
      show _ ≤ gramAt (exact' K) s k + s.density (posAt (exact' K) s k) * s.ds
      have := mul_le_mul_of_nonneg_right (hd (posAt (exact' K) s k)) hs.le
      push_cast
      linarith
  obtain ⟨m, hm'⟩ := Archimedean.arch max (mul_pos hρ hs)
  have hex : ∃ k, (exact' K).lt (gramAt (exact' K) s k) max = false := by
    refine ⟨m, ?_⟩
    have h1 := hge m
    rw [nsmul_eq_mul] at hm'
    have : max ≤ gramAt (exact' K) s m := le_trans hm' h1
    simpa [exact'] using this
  classical
  refine ⟨Nat.find hex, ?_, max, hm, Nat.find_spec hex, fun k hk => ?_⟩
  · rcases Nat.eq_zero_or_pos (Nat.find hex) with h | h
    · have := Nat.find_spec hex
      rw [h] at this
      have h0 : max ≤ 0 := by simpa [exact', gramAt] using this
      exact absurd h0 (not_le.2 hmax)
    · exact h
  · have := Nat.find_min hex hk
    simpa using this

/-! ### The choice of the shower -/

theorem closest_ok (en : K) : ∀ (es : List K) (best d : K), d = |en - best| →
    (closest (exact' K) abs en es best d = best ∨ closest (exact' K) abs en es best d ∈ es) ∧ |en - closest (exact' K) abs en es best d| ≤ d ∧
    ∀ e ∈ es, |en - closest (exact' K) abs en es best d| ≤ |en - e|
  | [], best, d, h => ⟨Or.inl rfl, by rw [h]; exact le_refl _, fun e he => by cases he⟩
  | e :: es, best, d, h => by
      by_cases hl : abs (en - e) < d
      · have hc : closest (exact' K) abs en (e :: es) best d = closest (exact' K) abs en es e (abs (en - e)) := by
          show (if (exact' K).lt (abs (en - e)) d then closest (exact' K) abs en es e (abs (en - e)) else closest (exact' K) abs en es best d) = _
          rw [if_pos (by simpa [exact'] using hl)]
        rw [hc]
        obtain ⟨h1, h2, h3⟩ := closest_ok en es e (abs (en - e)) rfl
        refine ⟨Or.inr ?_, le_trans h2 hl.le, fun e' he' => ?_⟩
        · rcases h1 with h1 | h1
          · rw [h1]; simp
          · exact List.mem_cons_of_mem _ h1
        · rcases List.mem_cons.1 he' with rfl | he'
          · exact h2
          · exact h3 e' he'
      · have hc : closest (exact' K) abs en (e :: es) best d = closest (exact' K) abs en es best d := by
          show (if (exact' K).lt (abs (en - e)) d then closest (exact' K) abs en es e (abs (en - e)) else closest (exact' K) abs en es best d) = _
          rw [if_neg (by simpa [exact'] using hl)]
        rw [hc]
        obtain ⟨h1, h2, h3⟩ := closest_ok en es best d h
        refine ⟨h1.imp_right (List.mem_cons_of_mem _), h2, fun e' he' => ?_⟩
        rcases List.mem_cons.1 he' with rfl | he'
        · exact le_trans h2 (not_lt.1 hl)
        · exact h3 e' he'

/-- **C51.** The profile that is chosen has a stored energy, no stored energy is nearer to the requested one, and the scaling is the ratio of the energies. -/
theorem C51_closest (stored : List K) (profiles : K → List (Profile K)) (en : K) (i : Nat) (hne : stored ≠ []) (hi : ∀ e ∈ stored, i < (profiles e).length) :
    ∃ e p, createShower (exact' K) abs stored profiles en i = .ok (p, en / e) ∧ e ∈ stored ∧ (∀ e' ∈ stored, |en - e| ≤ |en - e'|) ∧ (profiles e)[i]? = some p := by
  match stored, hne with
  | e0 :: es, _ =>
    obtain ⟨h1, h2, h3⟩ := closest_ok en es e0 |en - e0| rfl
    have hmem : closest (exact' K) abs en es e0 |en - e0| ∈ e0 :: es := by
      rcases h1 with h1 | h1
      · rw [h1]; simp
      · exact List.mem_cons_of_mem _ h1
    have hlt := hi _ hmem
    refine ⟨closest (exact' K) abs en es e0 |en - e0|, _, ?_, hmem, fun e' he' => ?_, List.getElem?_eq_getElem hlt⟩
    · show (if (i : Int) < 0 then Res.ub else match (profiles (closest (exact' K) abs en es e0 |en - e0|))[(i : Int).toNat]? with
        | some p => .ok (p, (exact' K).div en (closest (exact' K) abs en es e0 |en - e0|))
        | none => .ub) = _
      rw [if_neg (by omega), Int.toNat_natCast, List.getElem?_eq_getElem hlt]
      rfl
    · rcases List.mem_cons.1 he' with rfl | he'
      · exact h2
      · exact h3 e' he'

end Exact

/-- With the default argument (`i_shower = -1`, "pick a random shower") the access to the profiles is out of bounds, whatever has been stored. -/
theorem C51_default_index_out_of_bounds (N : Num K) (abs : K → K) (stored : List K) (profiles : K → List (Profile K)) (en : K) : createShower N abs stored profiles en (-1) = .ub := by
  unfold createShower
  cases stored with
  | nil => rfl
  | cons e es => rfl

/-! ### Examples and negative results -/

namespace Ex51

/-- Grammage of the entries, charge excess; density 2, step 1. -/
def setup : Setup Rat := ⟨⟨0, 0, 0⟩, ⟨0, 0, -1⟩, 1 / 2, 1, fun _ => 2, ⟨[0, 3, 7], [10, 40, 20]⟩, 3⟩

theorem ends : EndsAfter (exact' Rat) setup 4 := ⟨7, rfl, by decide +kernel, by decide +kernel⟩

example : setup.profile.charge.length = setup.profile.grammage.length ∧ (0 < 4 ∧ 4 < 2 ^ 31) := by decide

/-- Four points: grammages 0, 2, 4, 6. -/
example : getShower (exact' Rat) 10 setup = .ok [⟨0, ⟨0, 0, 0⟩, 10⟩, ⟨1 / 2, ⟨0, 0, -1⟩, 90⟩, ⟨1, ⟨0, 0, -2⟩, 105⟩, ⟨3 / 2, ⟨0, 0, -3⟩, 75⟩] := by
  have h : (match getShower (exact' Rat) 10 setup with | .ok l => decide (l = [⟨0, ⟨0, 0, 0⟩, 10⟩, ⟨1 / 2, ⟨0, 0, -1⟩, 90⟩, ⟨1, ⟨0, 0, -2⟩, 105⟩, ⟨3 / 2, ⟨0, 0, -3⟩, 75⟩]) | _ => false) = true := by
    decide +kernel
  revert h
  cases getShower (exact' Rat) 10 setup <;> intro h <;> first | cases h | skip
  exact congrArg _ (of_decide_eq_true h)

example : ∀ p, (2 : Rat) ≤ setup.density p := fun _ => le_refl _

end Ex51

/-- The charge excess of the first point lacks the scaling: at grammage 0 the profile is 10, the scaling 3, and the first point has 10. -/
theorem C51_first_point_not_scaled : ∃ (s : Setup Rat) (ps : List (Point Rat)) (q : Point Rat) (v : Rat), getShower (exact' Rat) 10 s = .ok ps ∧ ps[0]? = some q ∧
    Interpolated s.profile (gramAt (exact' Rat) s 0) v ∧ q.ce ≠ v * s.scaling := by
  obtain ⟨ps, h1, h2, h3⟩ := C51_interpolation_partial Ex51.setup rfl (fun _ => by show (0 : Rat) ≤ 2; decide +kernel) (by decide +kernel) Ex51.ends (by omega) (by omega) 10 (by omega)
  have hlt : 0 < ps.length := by omega
  obtain ⟨_, _, _, h4⟩ := h3 0 ps[0] (List.getElem?_eq_getElem hlt)
  have hce : (10 : Rat) = ps[0].ce := by
    have := h4 rfl
    injection this
  refine ⟨Ex51.setup, ps, ps[0], 10, h1, List.getElem?_eq_getElem hlt, Or.inl ⟨0, 10, rfl, rfl, le_refl _, rfl⟩, ?_⟩
  rw [← hce]
  show (10 : Rat) ≠ 10 * 3
  norm_num

end Verif.Shower
