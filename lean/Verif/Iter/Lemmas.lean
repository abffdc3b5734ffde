import Verif.Iter.Model
import Verif.Iter.Spec
namespace Verif

theorem forRange_mem {b e i : Nat} : i ∈ forRange b e ↔ b ≤ i ∧ i < e := by
  fun_induction forRange b e with
  | case1 b h ih => simp only [List.mem_cons, ih]; omega
  | case2 b h => simp; omega

theorem forRange_eq (b e : Nat) : forRange b e = List.range' b (e - b) := by
  fun_induction forRange b e with
  | case1 b h ih =>
      have : e - b = (e - (b+1)) + 1 := by omega
      rw [this, List.range'_succ, ih]
  | case2 b h => have : e - b = 0 := by omega
                 simp [this]

theorem forRange_pairwise (b e : Nat) : (forRange b e).Pairwise (· < ·) := by
  rw [forRange_eq]; exact List.pairwise_lt_range'

@[simp] theorem inBox_nil : InBox [] [] [] := by simp [InBox]

theorem inBox_cons {b e i : Nat} {bs es is : List Nat} :
    InBox (b :: bs) (e :: es) (i :: is) ↔ (b ≤ i ∧ i < e) ∧ InBox bs es is := by
  unfold InBox
  constructor
  · rintro ⟨h1, h2, h3⟩
    refine ⟨by simpa using h3 0 (by simp), by simpa using h1, by simpa using h2, ?_⟩
    intro d hd
    simpa using h3 (d+1) (by simpa using hd)
  · rintro ⟨h0, h1, h2, h3⟩
    refine ⟨by simpa using h1, by simpa using h2, ?_⟩
    intro d hd
    cases d with
    | zero => simpa using h0
    | succ d => simpa using h3 d (by simpa using hd)

theorem inBox_nil_left {e i : List Nat} : InBox [] e i ↔ e = [] ∧ i = [] := by
  constructor
  · rintro ⟨h1, h2, -⟩
    have : i = [] := by simpa using h1
    subst this
    exact ⟨by simpa using h2.symm, rfl⟩
  · rintro ⟨rfl, rfl⟩; exact inBox_nil

theorem inBox_cons_left {b : Nat} {bs e i : List Nat} :
    InBox (b :: bs) e i ↔ ∃ e0 es i0 is, e = e0 :: es ∧ i = i0 :: is ∧ (b ≤ i0 ∧ i0 < e0) ∧ InBox bs es is := by
  constructor
  · intro h
    obtain ⟨h1, h2, -⟩ := id h
    cases i with
    | nil => simp at h1
    | cons i0 is =>
      cases e with
      | nil => simp at h2
      | cons e0 es => exact ⟨e0, es, i0, is, rfl, rfl, inBox_cons.1 h⟩
  · rintro ⟨e0, es, i0, is, rfl, rfl, h⟩; exact inBox_cons.2 h

theorem mem_elemLoop : ∀ {b e i : List Nat}, i ∈ elemLoop b e ↔ InBox b e i
  | [], e, i => by
      cases e with
      | nil => simp [elemLoop, inBox_nil_left]
      | cons => simp [elemLoop, inBox_nil_left]
  | b :: bs, [], i => by
      simp only [elemLoop, List.not_mem_nil, false_iff]
      rw [inBox_cons_left]; simp
  | b :: bs, e :: es, i => by
      simp only [elemLoop, List.mem_flatMap, List.mem_map, forRange_mem, mem_elemLoop (b := bs) (e := es)]
      rw [inBox_cons_left]
      constructor
      · rintro ⟨i0, h0, is, h1, rfl⟩; exact ⟨e, es, i0, is, rfl, rfl, h0, h1⟩
      · rintro ⟨e', es', i0, is, h, rfl, h0, h1⟩
        cases h; exact ⟨i0, h0, is, h1, rfl⟩

theorem lexLt_cons {a b : Nat} {as bs : List Nat} :
    LexLt (a :: as) (b :: bs) ↔ a < b ∨ (a = b ∧ LexLt as bs) := by
  constructor
  · rintro ⟨k, h1, h2, h3, h4⟩
    cases k with
    | zero => left; simpa using h4
    | succ k =>
      right
      refine ⟨by simpa using h3 0 (by omega), k, by simpa using h1, by simpa using h2, ?_, by simpa using h4⟩
      intro j hj; simpa using h3 (j+1) (by omega)
  · rintro (h | ⟨rfl, k, h1, h2, h3, h4⟩)
    · exact ⟨0, by simp, by simp, by simp, by simpa using h⟩
    · refine ⟨k+1, by simpa using h1, by simpa using h2, ?_, by simpa using h4⟩
      intro j hj
      cases j with
      | zero => simp
      | succ j => simpa using h3 j (by omega)

theorem elemLoop_pairwise : ∀ (b e : List Nat), (elemLoop b e).Pairwise LexLt
  | [], [] => by simp [elemLoop]
  | [], _ :: _ => by simp [elemLoop]
  | _ :: _, [] => by simp [elemLoop]
  | b :: bs, e :: es => by
      simp only [elemLoop]
      rw [List.pairwise_flatMap]
      refine ⟨?_, ?_⟩
      · intro i _
        rw [List.pairwise_map]
        exact (elemLoop_pairwise bs es).imp (fun h => lexLt_cons.2 (Or.inr ⟨rfl, h⟩))
      · refine (forRange_pairwise b e).imp ?_
        intro i j hij x hx y hy
        simp only [List.mem_map] at hx hy
        obtain ⟨x', _, rfl⟩ := hx
        obtain ⟨y', _, rfl⟩ := hy
        exact lexLt_cons.2 (Or.inl hij)

theorem lexLt_irrefl (a : List Nat) : ¬ LexLt a a := by
  rintro ⟨k, _, _, _, h⟩; omega

theorem elemLoop_nodup (b e : List Nat) : (elemLoop b e).Nodup :=
  List.Pairwise.imp (fun {x y} h (he : x = y) => lexLt_irrefl y (by rw [he] at h; exact h)) (elemLoop_pairwise b e)

/-! ### Chunk loops -/

/-- Exact (non-wrapping) list of chunks along one dimension. -/
def chunkDimSpec (b e c : Nat) : List (Nat × Nat) :=
  if _h : b < e ∧ 0 < c then (b, min (b + c) e) :: chunkDimSpec (min (b + c) e) e c else []
termination_by e - b
decreasing_by omega

theorem chunkDim_eq (c e : Nat) : ∀ (fuel b : Nat), SafeDim b e c → e - b < fuel →
    chunkDim fuel b e c = some (chunkDimSpec b e c)
  | 0, b, _, hf => by omega
  | fuel + 1, b, hs, hf => by
      rw [chunkDim, chunkDimSpec]
      unfold SafeDim at hs
      by_cases hbe : b < e
      · have hc : 0 < c := by omega
        have hU : U64 = 2 ^ 64 := rfl
        have hw : min ((b + c) % U64) e = min (b + c) e := by
          by_cases h : b + c < U64
          · rw [Nat.mod_eq_of_lt h]
          · omega
        rw [if_pos hbe, dif_pos ⟨hbe, hc⟩]
        simp only [hw]
        rw [chunkDim_eq c e fuel (min (b+c) e) (by unfold SafeDim; omega) (by omega)]
        rfl
      · rw [if_neg hbe, dif_neg (by omega)]

theorem chunkDimSpec_nil {b e c : Nat} (h : e ≤ b) : chunkDimSpec b e c = [] := by
  rw [chunkDimSpec, dif_neg (by omega)]

theorem chunkDimSpec_cons {b e c : Nat} (h : b < e) (hc : 0 < c) :
    chunkDimSpec b e c = (b, min (b + c) e) :: chunkDimSpec (min (b + c) e) e c := by
  rw [chunkDimSpec, dif_pos ⟨h, hc⟩]

theorem chunkDimSpec_mem (e c : Nat) : ∀ b p, p ∈ chunkDimSpec b e c →
    ∃ k, p.1 = b + k * c ∧ p.2 = min (p.1 + c) e ∧ p.1 < e := by
  intro b p
  fun_induction chunkDimSpec b e c with
  | case1 b h ih =>
      intro hp
      rcases List.mem_cons.1 hp with rfl | hp
      · exact ⟨0, by simp, rfl, h.1⟩
      · obtain ⟨k, h1, h2, h3⟩ := ih hp
        by_cases hc : b + c < e
        · have hm : min (b + c) e = b + c := by omega
          exact ⟨k + 1, by rw [h1, hm, Nat.add_mul]; omega, h2, h3⟩
        · have : p.1 ≥ e := by rw [h1]; omega
          omega
  | case2 b h => simp

theorem chunkDimSpec_ge (e c : Nat) : ∀ b p, p ∈ chunkDimSpec b e c → b ≤ p.1 := by
  intro b p hp
  obtain ⟨k, h1, _, _⟩ := chunkDimSpec_mem e c b p hp
  rw [h1]; omega

theorem chunkDimSpec_cover (e c i : Nat) : ∀ b, (b < e → 0 < c) → b ≤ i → i < e →
    ∃ p ∈ chunkDimSpec b e c, p.1 ≤ i ∧ i < p.2 := by
  intro b
  fun_induction chunkDimSpec b e c with
  | case1 b h ih =>
      intro hc hb hi
      by_cases hlt : i < min (b + c) e
      · exact ⟨_, List.mem_cons_self, hb, hlt⟩
      · obtain ⟨p, hp, h1⟩ := ih (fun _ => h.2) (by omega) hi
        exact ⟨p, List.mem_cons_of_mem _ hp, h1⟩
  | case2 b h => intro hc hb hi; omega

theorem chunkDimSpec_pairwise (e c : Nat) : ∀ b, (chunkDimSpec b e c).Pairwise (fun p q => p.2 ≤ q.1) := by
  intro b
  fun_induction chunkDimSpec b e c with
  | case1 b h ih =>
      refine List.pairwise_cons.2 ⟨?_, ih⟩
      intro q hq
      exact chunkDimSpec_ge _ _ _ _ hq
  | case2 b h => simp

/-- Exact list of chunk boxes. -/
def chunkSpec : List Nat → List Nat → List Nat → List (List Nat × List Nat)
  | [], [], [] => [([], [])]
  | b :: bs, e :: es, c :: cs =>
      (chunkDimSpec b e c).flatMap fun o => (chunkSpec bs es cs).map fun p => (o.1 :: p.1, o.2 :: p.2)
  | _, _, _ => []

theorem Safe.len : ∀ {b e c : List Nat}, Safe b e c → b.length = e.length ∧ b.length = c.length
  | [], [], [], _ => by simp
  | _ :: _, _ :: _, _ :: _, h => by
      have := h.2.len
      simp; exact this
  | [], [], _ :: _, h => h.elim
  | [], _ :: _, _, h => h.elim
  | _ :: _, [], _, h => h.elim
  | _ :: _, _ :: _, [], h => h.elim

theorem chunkLoop_eq (fuel : Nat) : ∀ {b e c : List Nat}, Safe b e c → (∀ x ∈ e, x < fuel) →
    chunkLoop fuel b e c = some (chunkSpec b e c)
  | [], [], [], _, _ => rfl
  | b :: bs, e :: es, c :: cs, h, hf => by
      have he : e < fuel := hf e (by simp)
      have hin := chunkLoop_eq fuel h.2 (fun x hx => hf x (by simp [hx]))
      simp only [chunkLoop, chunkSpec, chunkDim_eq c e fuel b h.1 (by omega), hin]
      simp only [Option.bind_eq_bind, Option.bind_some]
      by_cases hem : (chunkDimSpec b e c).isEmpty
      · rw [if_pos hem]
        rw [List.isEmpty_iff] at hem
        simp [hem]
      · rw [if_neg hem]
  | [], [], _ :: _, h, _ => h.elim
  | [], _ :: _, _, h, _ => h.elim
  | _ :: _, [], _, h, _ => h.elim
  | _ :: _, _ :: _, [], h, _ => h.elim

/-- Every chunk box is well-formed. -/
theorem chunkSpec_mem_nil {p} : p ∈ chunkSpec [] [] [] ↔ p = ([], []) := by simp [chunkSpec]

theorem chunkSpec_mem_cons {b e c : Nat} {bs es cs : List Nat} {p} :
    p ∈ chunkSpec (b :: bs) (e :: es) (c :: cs) ↔
      ∃ o ∈ chunkDimSpec b e c, ∃ q ∈ chunkSpec bs es cs, p = (o.1 :: q.1, o.2 :: q.2) := by
  simp only [chunkSpec, List.mem_flatMap, List.mem_map]
  constructor
  · rintro ⟨o, ho, q, hq, rfl⟩; exact ⟨o, ho, q, hq, rfl⟩
  · rintro ⟨o, ho, q, hq, rfl⟩; exact ⟨o, ho, q, hq, rfl⟩

theorem chunkSpec_boxOK : ∀ {b e c : List Nat}, Safe b e c → ∀ p ∈ chunkSpec b e c, BoxOK b e c p.1 p.2
  | [], [], [], _, p, hp => by
      rw [chunkSpec_mem_nil] at hp; subst hp; simp [BoxOK]
  | b :: bs, e :: es, c :: cs, h, p, hp => by
      rw [chunkSpec_mem_cons] at hp
      obtain ⟨o, ho, q, hq, rfl⟩ := hp
      obtain ⟨i1, i2, i3⟩ := chunkSpec_boxOK h.2 q hq
      obtain ⟨k, k1, k2, k3⟩ := chunkDimSpec_mem e c b o ho
      have hc : 0 < c := by
        have := h.1
        unfold SafeDim at this
        have := chunkDimSpec_ge e c b o ho
        omega
      refine ⟨by simp [i1], by simp [i2], ?_⟩
      intro d hd
      cases d with
      | zero =>
        simp only [List.getD_cons_zero]
        refine ⟨by rw [k1]; omega, by omega, by omega, by omega, ⟨k, k1⟩, k2⟩
      | succ d => simpa using i3 d (by simpa using hd)
  | [], [], _ :: _, h, _, _ => h.elim
  | [], _ :: _, _, h, _, _ => h.elim
  | _ :: _, [], _, h, _, _ => h.elim
  | _ :: _, _ :: _, [], h, _, _ => h.elim

theorem chunkSpec_cover : ∀ {b e c i : List Nat}, Safe b e c →
    (InBox b e i ↔ ∃ p ∈ chunkSpec b e c, InBox p.1 p.2 i)
  | [], [], [], i, _ => by simp [chunkSpec]
  | b :: bs, e :: es, c :: cs, i, h => by
      rw [inBox_cons_left]
      constructor
      · rintro ⟨e', es', i0, is, he, rfl, h0, h1⟩
        cases he
        obtain ⟨q, hq, hqi⟩ := (chunkSpec_cover h.2).1 h1
        obtain ⟨o, ho, hoi⟩ := chunkDimSpec_cover e c i0 b (by have := h.1; unfold SafeDim at this; omega) h0.1 h0.2
        exact ⟨_, chunkSpec_mem_cons.2 ⟨o, ho, q, hq, rfl⟩, inBox_cons.2 ⟨hoi, hqi⟩⟩
      · rintro ⟨p, hp, hpi⟩
        rw [chunkSpec_mem_cons] at hp
        obtain ⟨o, ho, q, hq, rfl⟩ := hp
        rw [inBox_cons_left] at hpi
        obtain ⟨e', es', i0, is, he, rfl, h0, h1⟩ := hpi
        cases he
        obtain ⟨k, k1, k2, k3⟩ := chunkDimSpec_mem e c b o ho
        exact ⟨e, es, i0, is, rfl, rfl, by omega, (chunkSpec_cover h.2).2 ⟨q, hq, h1⟩⟩
  | [], [], _ :: _, _, h => h.elim
  | [], _ :: _, _, _, h => h.elim
  | _ :: _, [], _, _, h => h.elim
  | _ :: _, _ :: _, [], _, h => h.elim

theorem chunkSpec_disjoint : ∀ {b e c : List Nat}, Safe b e c →
    (chunkSpec b e c).Pairwise (fun p q => DisjointBox p.1 p.2 q.1 q.2)
  | [], [], [], _ => by simp [chunkSpec]
  | b :: bs, e :: es, c :: cs, h => by
      simp only [chunkSpec]
      rw [List.pairwise_flatMap]
      refine ⟨?_, ?_⟩
      · intro o _
        rw [List.pairwise_map]
        refine (chunkSpec_disjoint h.2).imp ?_
        rintro p q hpq i ⟨h1, h2⟩
        rw [inBox_cons_left] at h1
        obtain ⟨_, es', i0, is, he, rfl, h0, h1⟩ := h1
        cases he
        exact hpq is ⟨h1, (inBox_cons.1 h2).2⟩
      · refine (chunkDimSpec_pairwise e c b).imp ?_
        intro o o' hoo x hx y hy i ⟨h1, h2⟩
        simp only [List.mem_map] at hx hy
        obtain ⟨x', _, rfl⟩ := hx
        obtain ⟨y', _, rfl⟩ := hy
        rw [inBox_cons_left] at h1
        obtain ⟨_, es', i0, is, he, rfl, h0, h1⟩ := h1
        cases he
        have := (inBox_cons.1 h2).1
        omega
  | [], [], _ :: _, h => h.elim
  | [], _ :: _, _, h => h.elim
  | _ :: _, [], _, h => h.elim
  | _ :: _, _ :: _, [], h => h.elim

end Verif
