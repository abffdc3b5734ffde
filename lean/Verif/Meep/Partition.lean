import Verif.Meep.Rechunk
import Verif.Meep.Props56
import Verif.Meep.Padding
/-
`get_partition_size`: it comes to an end and returns multiples of the chunk size.
-/
namespace Verif.Meep
open Verif Verif.ND Verif.Dist Verif.Tree Verif.Rebuild Verif.Ops

/-- `q a b` is the quotient of `a` and `b`, rounded up, up to errors of floating-point arithmetic (exact division satisfies this, see `ceilDiv_rounds`; so does IEEE arithmetic with a
    relative error of less than 1/4 in each of the steps). -/
def Rounds (q : Nat → Nat → Nat) : Prop := ∀ a b, 0 < a → 0 < b → 0 < q a b ∧ q a b ≤ 2 * a

theorem ceilDiv_rounds : Rounds fun a b => (a + b - 1) / b := by
  intro a b ha hb
  constructor
  · exact Nat.div_pos (by omega) hb
  · show (a + b - 1) / b ≤ _
    rw [Nat.div_le_iff_le_mul_add_pred hb]
    have : a * 1 ≤ a * b := Nat.mul_le_mul_left _ hb
    have h2 : b * (2 * a) = 2 * (a * b) := by rw [Nat.mul_comm b, Nat.mul_assoc]
    omega

theorem prod_pos : ∀ {v : List Nat}, (∀ x ∈ v, 0 < x) → 0 < prod v
  | [], _ => Nat.one_pos
  | x :: v, h => Nat.mul_pos (h x (by simp)) (prod_pos fun y hy => h y (by simp [hy]))

theorem getD_le_prod : ∀ {v : List Nat} {d : Nat}, (∀ x ∈ v, 0 < x) → d < v.length → v.getD d 0 ≤ prod v
  | x :: v, 0, h, _ => Nat.le_mul_of_pos_right _ (prod_pos fun y hy => h y (by simp [hy]))
  | x :: v, d + 1, h, hd => by
      have := getD_le_prod (v := v) (d := d) (fun y hy => h y (by simp [hy])) (by simpa using hd)
      have hx := h x (by simp)
      exact Nat.le_trans this (Nat.le_mul_of_pos_left _ hx)

theorem map_max_one {v : List Nat} (h : ∀ x ∈ v, 0 < x) : v.map (fun x => max x 1) = v := by
  conv => rhs; rw [← List.map_id v]
  apply List.map_congr_left
  intro x hx
  have := h x hx
  show max x 1 = x
  omega

theorem grow_ok {ax n : Nat} (hn : n ≤ 2 ^ 30) : ∀ (fuel : Nat) {v : List Nat}, (∀ x ∈ v, 0 < x) → ax < v.length → prod v < 2 ^ 31 → 0 < fuel → n < fuel + v.getD ax 0 →
    ∃ pars, growLoop ax n fuel v = .ok pars ∧ pars.length = v.length ∧ (∀ x ∈ pars, 0 < x) ∧ n ≤ prod pars ∧ (pars = v ∨ prod pars < 2 * n)
  | 0, v, _, _, _, hf, _ => absurd hf (Nat.lt_irrefl _)
  | fuel + 1, v, hv, hax, hp, _, hfu => by
      unfold growLoop intProd
      rw [map_max_one hv, if_pos hp]
      simp only [Res.ok_bind]
      split
      · rename_i hlt
        have hle := getD_le_prod hv hax
        have hU : U64 = 2 ^ 64 := rfl
        have hpos : 0 < v.getD ax 0 := by
          rw [List.getD_eq_getElem?_getD, List.getElem?_eq_getElem hax]
          exact hv _ (List.getElem_mem hax)
        rw [wadd_eq (by omega)]
        have hs := prod_set (e := v) (k := ax) (t := v.getD ax 0 + 1) hax
        have h2 : prod (v.set ax (v.getD ax 0 + 1)) ≤ 2 * prod v := by
          refine Nat.le_of_mul_le_mul_left ?_ hpos
          rw [hs]
          have : (v.getD ax 0 + 1) * prod v ≤ (2 * v.getD ax 0) * prod v := Nat.mul_le_mul_right _ (by omega)
          calc (v.getD ax 0 + 1) * prod v ≤ (2 * v.getD ax 0) * prod v := this
            _ = v.getD ax 0 * (2 * prod v) := by rw [Nat.mul_comm 2, Nat.mul_assoc]
        have hg : (v.set ax (v.getD ax 0 + 1)).getD ax 0 = v.getD ax 0 + 1 := by
          rw [List.getD_eq_getElem?_getD, List.getElem?_set_self hax]; rfl
        obtain ⟨pars, e1, e2, e3, e4, e5⟩ := grow_ok hn fuel (v := v.set ax (v.getD ax 0 + 1)) (fun x hx => by
            rcases List.mem_or_eq_of_mem_set hx with hx | rfl
            · exact hv x hx
            · omega) (by rw [List.length_set]; exact hax) (by omega) (by omega) (by rw [hg]; omega)
        exact ⟨pars, e1, by rw [e2, List.length_set], e3, e4, Or.inr (by
          rcases e5 with rfl | e5 <;> omega)⟩
      · rename_i hlt
        exact ⟨v, rfl, rfl, hv, by omega, Or.inl rfl⟩

theorem longestAxis_lt : ∀ {v : List Nat}, 0 < v.length → longestAxis v < v.length := by
  intro v hv
  unfold longestAxis
  rw [List.idxOf_lt_length_iff]
  have : ∀ {v : List Nat}, 0 < v.length → v.foldr max 0 ∈ v := by
    intro v
    induction v with
    | nil => intro h; exact absurd h (Nat.lt_irrefl _)
    | cons x v ih =>
      intro _
      show max x (v.foldr max 0) ∈ _
      rcases Nat.eq_zero_or_pos v.length with h0 | h0
      · have : v = [] := List.length_eq_zero_iff.1 h0
        subst this
        show max x 0 ∈ _
        rw [Nat.max_zero]; simp
      · rcases Nat.le_total x (v.foldr max 0) with h | h
        · rw [Nat.max_eq_right h]; exact List.mem_cons_of_mem _ (ih h0)
        · rw [Nat.max_eq_left h]; simp
  exact this hv

/-- `get_partition_size` succeeds; the partition size is a positive multiple of the chunk size along each axis. -/
theorem partitionSize_ok {q : Nat → Nat → Nat} (hq : Rounds q) {guess n : Nat} {shape chunk : List Nat} (hl : chunk.length = shape.length) (hd : 0 < shape.length)
    (hg : 0 < guess) (hgn : guess ^ shape.length < 2 ^ 31) (hn : n ≤ 2 ^ 30)
    (hsc : ∀ d < shape.length, 0 < shape.getD d 0 ∧ shape.getD d 0 < 2 ^ 31 ∧ 0 < chunk.getD d 0 ∧ chunk.getD d 0 < 2 ^ 30) :
    ∃ size, partitionSize q guess shape chunk n = .ok size ∧ size.length = shape.length ∧
      (∀ d < shape.length, size.getD d 0 < 2 ^ 63 ∧ ∃ k, 0 < k ∧ size.getD d 0 = k * chunk.getD d 0) ∧
      ((∀ a b, 0 < b → a ≤ q a b * b) → ∃ pars : List Nat, pars.length = shape.length ∧ n ≤ prod pars ∧ (prod pars = guess ^ shape.length ∨ prod pars < 2 * n) ∧
        ∀ d < shape.length, shape.getD d 0 ≤ pars.getD d 0 * size.getD d 0) := by
  obtain ⟨pars, e1, e2, e3, e4, e5⟩ := grow_ok (ax := longestAxis shape) hn (n + 1) (v := List.replicate shape.length guess)
    (fun x hx => by rw [List.eq_of_mem_replicate hx]; exact hg) (by rw [List.length_replicate]; exact longestAxis_lt hd) (by
      have : prod (List.replicate shape.length guess) ≤ guess ^ (List.replicate shape.length guess).length := prod_le_pow fun x hx => Nat.le_of_eq (List.eq_of_mem_replicate hx)
      rw [List.length_replicate] at this; omega) (by omega) (by omega)
  rw [List.length_replicate] at e2
  have hrep : prod (List.replicate shape.length guess) = guess ^ shape.length := by
    generalize shape.length = m
    induction m with
    | zero => rfl
    | succ m ih =>
      rw [List.replicate_succ, Nat.pow_succ, ← ih, Nat.mul_comm]
      rfl
  have key : ∀ d < shape.length, ∃ k, 0 < k ∧ k * chunk.getD d 0 < 2 ^ 63 ∧ k = q (q (shape.getD d 0) (chunk.getD d 0)) (pars.getD d 0) ∧ 0 < pars.getD d 0 ∧
      (vmul (List.zipWith q (List.zipWith q shape chunk) pars) chunk).getD d 0 = k * chunk.getD d 0 := by
    intro d hd
    obtain ⟨h1, h2, h3, h4⟩ := hsc d hd
    have hp : 0 < pars.getD d 0 := by
      rw [List.getD_eq_getElem?_getD, List.getElem?_eq_getElem (by omega)]
      exact e3 _ (List.getElem_mem _)
    have hU : U64 = 2 ^ 64 := rfl
    unfold vmul
    rw [getD_zipN (by simp; omega) (by omega), getD_zipN (by simp; omega) (by omega), getD_zipN hd (by omega)]
    obtain ⟨a1, a2⟩ := hq _ _ h1 h3
    obtain ⟨b1, b2⟩ := hq _ _ a1 hp
    generalize hk : q (q (shape.getD d 0) (chunk.getD d 0)) (pars.getD d 0) = k at b1 b2 ⊢
    have hk' : k ≤ 4 * shape.getD d 0 := by omega
    have hm : k * chunk.getD d 0 ≤ (2 ^ 33 - 4) * (2 ^ 30 - 1) := Nat.mul_le_mul (by omega) (by omega)
    exact ⟨k, b1, by omega, rfl, hp, Nat.mod_eq_of_lt (by omega)⟩
  refine ⟨vmul (List.zipWith q (List.zipWith q shape chunk) pars) chunk, ?_, ?_, fun d hd => ?_, fun hx => ⟨pars, e2, e4, ?_, fun d hd => ?_⟩⟩
  · unfold partitionSize
    rw [e1]
    rfl
  · unfold vmul; simp [hl, e2]
  · obtain ⟨k, k1, k2, _, _, k3⟩ := key d hd
    exact ⟨by omega, k, k1, k3⟩
  · rcases e5 with e5 | e5
    · left; rw [e5]; exact hrep
    · exact Or.inr e5
  · obtain ⟨k, k1, k2, k0, hp, k3⟩ := key d hd
    have h1 := hx (shape.getD d 0) (chunk.getD d 0) (hsc d hd).2.2.1
    have h2 := hx (q (shape.getD d 0) (chunk.getD d 0)) (pars.getD d 0) hp
    rw [← k0] at h2
    rw [k3, ← Nat.mul_assoc, Nat.mul_comm (pars.getD d 0)]
    exact Nat.le_trans h1 (Nat.mul_le_mul_right _ h2)

theorem ceilDiv_exact : ∀ a b, 0 < b → a ≤ (fun a b => (a + b - 1) / b) a b * b := by
  intro a b hb
  show a ≤ (a + b - 1) / b * b
  have := Nat.div_add_mod (a + b - 1) b
  have h2 := Nat.mod_lt (a + b - 1) hb
  rw [Nat.mul_comm] at this
  omega

/-- Three processes, an array of 20 x 30 elements, chunks of 4 x 7 elements: partitions of 20 x 14 elements. -/
example : partitionSize (fun a b => (a + b - 1) / b) 1 [20, 30] [4, 7] 3 = .ok [20, 14] := by decide +kernel

end Verif.Meep
