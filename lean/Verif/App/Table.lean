import Verif.Base
import Mathlib.Algebra.Order.Field.Basic
import Mathlib.Data.List.Perm.Basic
import Mathlib.Tactic.Linarith
import Mathlib.Tactic.FieldSimp
import Mathlib.Tactic.Ring
import Mathlib.Tactic.NormNum
import Mathlib.Algebra.Order.Ring.Rat
/-
Model of the tables of the application `dipole` (/repo/applications/dipole/dipole.cxx): the index of refraction of the ice as a function of the height and the impulse response as a function of time, read as two
columns and interpolated linearly.

Numbers are elements of an ordered field (no rounding, no NaN).
-/
set_option linter.unusedSectionVars false
namespace Verif.App
open Verif

variable {K : Type} [Field K] [LinearOrder K] [IsStrictOrderedRing K]

/-! ### The program -/

/-- dipole.cxx 9-16 `reorder_vector`. `vec[i]` is undefined outside of the vector. -/
def reorder (vec : List K) : List Nat → Res (List K)
  | [] => .ok []
  | i :: is => match vec[i]? with
    | none => .ub
    | some v => (reorder vec is).bind fun l => .ok (v :: l)

/-- dipole.cxx 27-30, `std::adjacent_find` with `find_bracketing_args`: the index of the first of the neighbours found, if any. -/
def bracket (x : K) : List K → Option Nat
  | a :: b :: l => if a ≤ x ∧ b > x then some 0 else (bracket x (b :: l)).map (· + 1)
  | _ => none

/-- dipole.cxx 21-45 `lin_interp`. -/
def linInterp (args vals : List K) (x : K) : Res K :=
  (Res.assert (decide (args.length = vals.length))).bind fun _ =>
  (Res.assert (decide (2 ≤ args.length))).bind fun _ =>
  match bracket x args with
  | none => .throw
  | some i =>
    (Res.assert (decide (x ≥ args.getD i 0))).bind fun _ =>
    (Res.assert (decide (x - args.getD i 0 ≤ args.getD (i + 1) 0 - args.getD i 0))).bind fun _ =>
    .ok (vals.getD i 0 + (vals.getD (i + 1) 0 - vals.getD i 0) / (args.getD (i + 1) 0 - args.getD i 0) * (x - args.getD i 0))

/-- dipole.cxx 81-91: both columns in the order `sorter` of the first one. -/
def sortTable (args vals : List K) (sorter : List Nat) : Res (List K × List K) := (reorder args sorter).bind fun a => (reorder vals sorter).bind fun v => .ok (a, v)

/-- dipole.cxx 94-100: the permittivity. -/
def eps (args vals : List K) (z : K) : Res K := (linInterp args vals z).bind fun n => .ok (n ^ 2)

/-- dipole.cxx 111-119: the impulse response; `tEnd` is the last entry of the table (109). -/
def impulse (args vals : List K) (tEnd t : K) : Res K := if t ≤ 0 ∨ t ≥ tEnd then .ok 0 else linInterp args vals t

/-! ### Specification -/

/-- What `std::sort` guarantees for the indices 0, ..., n - 1 of the keys: all of them, in an order in which the keys do not decrease. -/
def Sorts (s : List Nat) (keys : List K) : Prop := s.Perm (List.range keys.length) ∧ s.Pairwise fun i j => keys.getD i 0 ≤ keys.getD j 0

/-- `x` is at or after some row and before another one. -/
def InRange (rows : List (K × K)) (x : K) : Prop := (∃ r ∈ rows, r.1 ≤ x) ∧ ∃ r ∈ rows, x < r.1

/-- `y` is on the straight line between two neighbouring rows, around `x`. -/
def OnLine (rows : List (K × K)) (x y : K) : Prop := ∃ a ∈ rows, ∃ b ∈ rows, a.1 ≤ x ∧ x < b.1 ∧ (∀ r ∈ rows, r.1 ≤ a.1 ∨ b.1 ≤ r.1) ∧ y = a.2 + (b.2 - a.2) * ((x - a.1) / (b.1 - a.1))

/-! ### Proof -/

theorem reorder_ok (vec : List K) : ∀ s : List Nat, (∀ i ∈ s, i < vec.length) → reorder vec s = .ok (s.map fun i => vec.getD i 0)
  | [], _ => rfl
  | i :: s, h => by
    have hi := h i (by simp)
    unfold reorder
    rw [List.getElem?_eq_getElem hi]
    simp only
    rw [reorder_ok vec s fun j hj => h j (by simp [hj])]
    simp [Res.bind, List.getD, hi]

theorem bracket_some {x : K} : ∀ {l : List K} {i : Nat}, bracket x l = some i → i + 1 < l.length ∧ l.getD i 0 ≤ x ∧ x < l.getD (i + 1) 0
  | [], _, h => by cases h
  | [_], _, h => by cases h
  | a :: b :: l, i, h => by
    unfold bracket at h
    by_cases hc : a ≤ x ∧ b > x
    · rw [if_pos hc] at h
      cases h
      exact ⟨by simp, hc.1, hc.2⟩
    · rw [if_neg hc] at h
      obtain ⟨j, hj, rfl⟩ := Option.map_eq_some_iff.1 h
      obtain ⟨h1, h2, h3⟩ := bracket_some hj
      refine ⟨by simpa using h1, ?_, ?_⟩
      · rw [List.getD_cons_succ]; exact h2
      · rw [List.getD_cons_succ]; exact h3

theorem bracket_none {x : K} : ∀ {l : List K}, bracket x l = none → l.getD 0 0 ≤ x → ∀ i < l.length, l.getD i 0 ≤ x
  | [], _, _, _, hi => by simp at hi
  | [a], _, h, i, hi => by
    have : i = 0 := by simpa using hi
    subst this; exact h
  | a :: b :: l, hb, h, i, hi => by
    unfold bracket at hb
    rw [List.getD_cons_zero] at h
    by_cases hc : a ≤ x ∧ b > x
    · rw [if_pos hc] at hb; cases hb
    · rw [if_neg hc] at hb
      have hb' := Option.map_eq_none_iff.1 hb
      have h2 : b ≤ x := not_lt.1 fun h3 => hc ⟨h, h3⟩
      cases i with
      | zero => exact h
      | succ i =>
        rw [List.getD_cons_succ]
        exact bracket_none hb' (by rw [List.getD_cons_zero]; exact h2) i (by simpa using hi)

theorem assert_true {c : Prop} [Decidable c] (h : c) {α : Type} (f : Unit → Res α) : (Res.assert (decide c)).bind f = f () := by
  rw [decide_eq_true h]; rfl

/-- The interpolation between neighbouring entries. -/
theorem linInterp_ok {args vals : List K} (hl : args.length = vals.length) (h2 : 2 ≤ args.length) {x : K} {i : Nat} (h : bracket x args = some i) :
    linInterp args vals x = .ok (vals.getD i 0 + (vals.getD (i + 1) 0 - vals.getD i 0) * ((x - args.getD i 0) / (args.getD (i + 1) 0 - args.getD i 0))) := by
  obtain ⟨_, h3, h4⟩ := bracket_some h
  unfold linInterp
  rw [assert_true hl, assert_true h2, h]
  simp only
  rw [assert_true h3, assert_true (by linarith)]
  rw [div_mul_eq_mul_div, mul_div_assoc]

theorem linInterp_throw {args vals : List K} (hl : args.length = vals.length) (h2 : 2 ≤ args.length) {x : K} (h : bracket x args = none) : linInterp args vals x = .throw := by
  unfold linInterp
  rw [assert_true hl, assert_true h2, h]

/-- The sorted table. -/
theorem sorted_facts {rows : List (K × K)} {s : List Nat} (hs : Sorts s (rows.map Prod.fst)) :
    ∃ t : List (K × K), sortTable (rows.map Prod.fst) (rows.map Prod.snd) s = .ok (t.map Prod.fst, t.map Prod.snd) ∧ t.Perm rows ∧ t.Pairwise fun a b => a.1 ≤ b.1 := by
  have hlt : ∀ i ∈ s, i < rows.length := fun i hi => by simpa using hs.1.subset hi
  have e1 : ∀ i ∈ s, (rows.map Prod.fst).getD i 0 = (rows.getD i (0, 0)).1 := fun i hi => by simp [List.getD, hlt i hi]
  have e2 : ∀ i ∈ s, (rows.map Prod.snd).getD i 0 = (rows.getD i (0, 0)).2 := fun i hi => by simp [List.getD, hlt i hi]
  refine ⟨s.map fun i => rows.getD i (0, 0), ?_, ?_, ?_⟩
  · unfold sortTable
    rw [reorder_ok _ s (by simpa using hlt), reorder_ok _ s (by simpa using hlt)]
    simp only [Res.ok_bind, List.map_map]
    rw [List.map_congr_left e1, List.map_congr_left e2]
    rfl
  · have h1 := hs.1.map fun i => rows.getD i (0, 0)
    rw [List.length_map] at h1
    refine h1.trans (List.Perm.of_eq ?_)
    apply List.ext_getElem
    · simp
    · intro i a b
      simp at a
      simp [List.getD, a]
  · rw [List.pairwise_map]
    refine List.Pairwise.imp_of_mem ?_ hs.2
    intro i j hi hj h
    rw [e1 i hi, e1 j hj] at h
    exact h

/-- The interpolation in a sorted table. -/
theorem sorted_interp {t : List (K × K)} (ht : t.Pairwise fun a b => a.1 ≤ b.1) (h2 : 2 ≤ t.length) (x : K) :
    (InRange t x → ∃ y, OnLine t x y ∧ linInterp (t.map Prod.fst) (t.map Prod.snd) x = .ok y) ∧ (¬ InRange t x → linInterp (t.map Prod.fst) (t.map Prod.snd) x = .throw) := by
  have hl : (t.map Prod.fst).length = (t.map Prod.snd).length := by simp
  have hl2 : 2 ≤ (t.map Prod.fst).length := by simpa using h2
  have g1 : ∀ i (h : i < t.length), (t.map Prod.fst).getD i 0 = t[i].1 := fun i h => by simp [List.getD, h]
  have g2 : ∀ i (h : i < t.length), (t.map Prod.snd).getD i 0 = t[i].2 := fun i h => by simp [List.getD, h]
  have mono : ∀ i j (h : i < t.length) (h' : j < t.length), i ≤ j → t[i].1 ≤ t[j].1 := fun i j h h' hij => by
    rcases Nat.eq_or_lt_of_le hij with rfl | h3
    · exact le_refl _
    · exact List.pairwise_iff_getElem.1 ht i j h h' h3
  cases hb : bracket x (t.map Prod.fst) with
  | none =>
    have h3 : ¬ InRange t x := by
      rintro ⟨⟨r, r1, r2⟩, ⟨u, u1, u2⟩⟩
      obtain ⟨i, i1, rfl⟩ := List.getElem_of_mem r1
      obtain ⟨j, j1, rfl⟩ := List.getElem_of_mem u1
      have h0 : (t.map Prod.fst).getD 0 0 ≤ x := by
        rw [g1 0 (by omega)]
        exact le_trans (mono 0 i (by omega) i1 (Nat.zero_le _)) r2
      have := bracket_none hb h0 j (by simpa using j1)
      rw [g1 j j1] at this
      exact absurd this (not_le.2 u2)
    exact ⟨fun h => absurd h h3, fun _ => linInterp_throw hl hl2 hb⟩
  | some i =>
    obtain ⟨b1, b2, b3⟩ := bracket_some hb
    have b1' : i + 1 < t.length := by simpa using b1
    rw [g1 i (by omega)] at b2
    rw [g1 (i + 1) b1'] at b3
    have hin : InRange t x := ⟨⟨_, List.getElem_mem (by omega), b2⟩, ⟨_, List.getElem_mem b1', b3⟩⟩
    refine ⟨fun _ => ⟨_, ⟨t[i], List.getElem_mem _, t[i + 1], List.getElem_mem _, b2, b3, fun r hr => ?_, ?_⟩, linInterp_ok hl hl2 hb⟩, fun h => absurd hin h⟩
    · obtain ⟨j, j1, rfl⟩ := List.getElem_of_mem hr
      rcases Nat.lt_or_ge i j with h | h
      · exact .inr (mono _ _ _ _ h)
      · exact .inl (mono _ _ _ _ h)
    · rw [g1 i (by omega), g1 (i + 1) b1', g2 i (by omega), g2 (i + 1) b1']

theorem InRange.perm {t rows : List (K × K)} (h : t.Perm rows) {x : K} : InRange t x ↔ InRange rows x := by
  unfold InRange
  simp only [h.mem_iff]

theorem OnLine.perm {t rows : List (K × K)} (h : t.Perm rows) {x y : K} : OnLine t x y ↔ OnLine rows x y := by
  unfold OnLine
  simp only [h.mem_iff]

/-- In a table without repeated arguments, there is one value on the line. -/
theorem OnLine.unique {rows : List (K × K)} (hd : ∀ r ∈ rows, ∀ r' ∈ rows, r.1 = r'.1 → r = r') {x y y' : K} (h : OnLine rows x y) (h' : OnLine rows x y') : y = y' := by
  obtain ⟨a, a1, b, b1, h1, h2, h3, rfl⟩ := h
  obtain ⟨a', a1', b', b1', h1', h2', h3', rfl⟩ := h'
  have ea : a = a' := hd a a1 a' a1' (le_antisymm (by
    rcases h3' a a1 with h | h
    · exact h
    · exact absurd (lt_of_lt_of_le h2' h) (not_lt.2 h1)) (by
    rcases h3 a' a1' with h | h
    · exact h
    · exact absurd (lt_of_lt_of_le h2 h) (not_lt.2 h1')))
  have eb : b = b' := hd b b1 b' b1' (le_antisymm (by
    rcases h3 b' b1' with h | h
    · exact absurd (lt_of_lt_of_le h2' h) (not_lt.2 h1)
    · exact h) (by
    rcases h3' b b1 with h | h
    · exact absurd (lt_of_lt_of_le h2 h) (not_lt.2 h1')
    · exact h))
  rw [ea, eb]

/-! ### C72 -/

/-- **C72**: for every table of at least two rows, in any order, and every result of the sort: at or after the first and before the last argument, the value is on the straight line between the two neighbouring rows; elsewhere
    an exception is thrown. (Missing: the last argument itself, see `C72_last_refused`.) -/
theorem C72_table_partial (rows : List (K × K)) (h2 : 2 ≤ rows.length) (s : List Nat) (hs : Sorts s (rows.map Prod.fst)) :
    ∃ args vals, sortTable (rows.map Prod.fst) (rows.map Prod.snd) s = .ok (args, vals) ∧
      ∀ x, (InRange rows x → ∃ y, OnLine rows x y ∧ linInterp args vals x = .ok y ∧ eps args vals x = .ok (y ^ 2)) ∧ (¬ InRange rows x → linInterp args vals x = .throw ∧ eps args vals x = .throw) := by
  obtain ⟨t, e, hp, hw⟩ := sorted_facts hs
  refine ⟨_, _, e, fun x => ?_⟩
  obtain ⟨k1, k2⟩ := sorted_interp hw (by rw [hp.length_eq]; exact h2) x
  rw [InRange.perm hp] at k1 k2
  refine ⟨fun h => ?_, fun h => ?_⟩
  · obtain ⟨y, y1, y2⟩ := k1 h
    refine ⟨y, (OnLine.perm hp).1 y1, y2, ?_⟩
    unfold eps
    rw [y2]; rfl
  · refine ⟨k2 h, ?_⟩
    unfold eps
    rw [k2 h]; rfl

/-- **C72**: the order of the rows does not matter, nor how the sort arranges them (no argument occurs twice). -/
theorem C72_order (rows rows' : List (K × K)) (hp : rows.Perm rows') (h2 : 2 ≤ rows.length) (hd : ∀ r ∈ rows, ∀ r' ∈ rows, r.1 = r'.1 → r = r') (s s' : List Nat) (hs : Sorts s (rows.map Prod.fst))
    (hs' : Sorts s' (rows'.map Prod.fst)) {args vals args' vals' : List K} (h : sortTable (rows.map Prod.fst) (rows.map Prod.snd) s = .ok (args, vals))
    (h' : sortTable (rows'.map Prod.fst) (rows'.map Prod.snd) s' = .ok (args', vals')) (x : K) : linInterp args vals x = linInterp args' vals' x := by
  obtain ⟨a, v, e, k⟩ := C72_table_partial rows h2 s hs
  obtain ⟨a', v', e', k'⟩ := C72_table_partial rows' (by rw [← hp.length_eq]; exact h2) s' hs'
  rw [h] at e; rw [h'] at e'
  cases e; cases e'
  by_cases hr : InRange rows x
  · obtain ⟨y, y1, y2, _⟩ := (k x).1 hr
    obtain ⟨y', y1', y2', _⟩ := (k' x).1 ((InRange.perm hp).1 hr)
    rw [y2, y2', OnLine.unique hd y1 ((OnLine.perm hp).2 y1')]
  · rw [((k x).2 hr).1, ((k' x).2 fun h => hr ((InRange.perm hp).2 h)).1]

/-- **C72**: the rows are reproduced, except the last one (no argument occurs twice). -/
theorem C72_rows (rows : List (K × K)) (hd : ∀ r ∈ rows, ∀ r' ∈ rows, r.1 = r'.1 → r = r') (s : List Nat) (hs : Sorts s (rows.map Prod.fst)) {args vals : List K}
    (h : sortTable (rows.map Prod.fst) (rows.map Prod.snd) s = .ok (args, vals)) (r : K × K) (hr : r ∈ rows) (hlast : ∃ r' ∈ rows, r.1 < r'.1) : linInterp args vals r.1 = .ok r.2 := by
  obtain ⟨u, u1, u2⟩ := hlast
  have h2 : 2 ≤ rows.length := by
    rcases rows with _ | ⟨a, _ | ⟨b, l⟩⟩
    · cases hr
    · rw [List.mem_singleton] at hr u1
      rw [hr, u1] at u2
      exact absurd u2 (lt_irrefl _)
    · simp
  obtain ⟨a, v, e, k⟩ := C72_table_partial rows h2 s hs
  rw [h] at e
  cases e
  obtain ⟨y, ⟨a, a1, b, b1, h1, h3, h4, rfl⟩, y2, _⟩ := (k r.1).1 ⟨⟨r, hr, le_refl _⟩, u, u1, u2⟩
  have ea : r = a := hd r hr a a1 (le_antisymm (by
    rcases h4 r hr with h | h
    · exact h
    · exact absurd h3 (not_lt.2 h)) h1)
  rw [y2, ea, sub_self, zero_div, mul_zero, add_zero]

/-- **C72**: the values stay within the bounds of the values in the table. -/
theorem C72_bounds (rows : List (K × K)) (x y lo hi : K) (h : OnLine rows x y) (hb : ∀ r ∈ rows, lo ≤ r.2 ∧ r.2 ≤ hi) : lo ≤ y ∧ y ≤ hi := by
  obtain ⟨a, a1, b, b1, h1, h2, _, rfl⟩ := h
  have hw : 0 < b.1 - a.1 := by linarith
  have u0 : 0 ≤ (x - a.1) / (b.1 - a.1) := div_nonneg (by linarith) hw.le
  have u1 : (x - a.1) / (b.1 - a.1) ≤ 1 := by rw [div_le_one hw]; linarith
  have ha := hb a a1
  have hb := hb b b1
  generalize (x - a.1) / (b.1 - a.1) = u at *
  constructor
  · nlinarith [mul_nonneg u0 (sub_nonneg.2 hb.1), mul_nonneg (sub_nonneg.2 u1) (sub_nonneg.2 ha.1)]
  · nlinarith [mul_nonneg u0 (sub_nonneg.2 hb.2), mul_nonneg (sub_nonneg.2 u1) (sub_nonneg.2 ha.2)]

/-- C72, the rest does not hold: the value at the last argument of a table is refused. -/
theorem C72_last_refused (rows : List (K × K)) (h2 : 2 ≤ rows.length) (s : List Nat) (hs : Sorts s (rows.map Prod.fst)) {args vals : List K}
    (h : sortTable (rows.map Prod.fst) (rows.map Prod.snd) s = .ok (args, vals)) (r : K × K) (hmax : ∀ r' ∈ rows, r'.1 ≤ r.1) : linInterp args vals r.1 = .throw := by
  obtain ⟨a, v, e, k⟩ := C72_table_partial rows h2 s hs
  rw [h] at e
  cases e
  refine ((k r.1).2 ?_).1
  rintro ⟨_, u, u1, u2⟩
  exact absurd u2 (not_lt.2 (hmax u u1))

/-- **C72**: the impulse response, for a table with rows in the order of time that begins at time 0 or before: zero outside of the table, on the straight line between neighbouring rows inside; no exception. -/
theorem C72_impulse (rows : List (K × K)) (h2 : 2 ≤ rows.length) (hw : rows.Pairwise fun a b => a.1 ≤ b.1) (hfirst : ∃ r ∈ rows, r.1 ≤ 0) {tEnd : K} (hend : (rows.map Prod.fst).getLast? = some tEnd) (t : K) :
    ∃ y, impulse (rows.map Prod.fst) (rows.map Prod.snd) tEnd t = .ok y ∧ (t ≤ 0 ∨ tEnd ≤ t → y = 0) ∧ (0 < t ∧ t < tEnd → OnLine rows t y) := by
  unfold impulse
  by_cases hc : t ≤ 0 ∨ t ≥ tEnd
  · rw [if_pos hc]
    refine ⟨0, rfl, fun _ => rfl, fun h => ?_⟩
    rcases hc with h' | h'
    · exact absurd h.1 (not_lt.2 h')
    · exact absurd h.2 (not_lt.2 h')
  · rw [if_neg hc]
    obtain ⟨c1, c2⟩ := not_or.1 hc
    have c1 := not_le.1 c1
    have c2 := not_le.1 c2
    obtain ⟨r, r1, r2⟩ := hfirst
    have hl : tEnd ∈ rows.map Prod.fst := List.mem_of_getLast? hend
    obtain ⟨u, u1, u2⟩ := List.mem_map.1 hl
    obtain ⟨y, y1, y2⟩ := (sorted_interp hw h2 t).1 ⟨⟨r, r1, le_trans r2 c1.le⟩, u, u1, by rw [u2]; exact c2⟩
    refine ⟨y, y2, fun h => ?_, fun _ => y1⟩
    rcases h with h | h
    · exact absurd c1 (not_lt.2 h)
    · exact absurd c2 (not_lt.2 h)

/-- C72, the rest does not hold: if the table of the impulse response begins after time 0, its values between 0 and the first row are refused. -/
theorem C72_impulse_late (rows : List (K × K)) (h2 : 2 ≤ rows.length) (hw : rows.Pairwise fun a b => a.1 ≤ b.1) {tEnd t : K} (h : ∀ r ∈ rows, t < r.1) (h0 : 0 < t) (hend : t < tEnd) :
    impulse (rows.map Prod.fst) (rows.map Prod.snd) tEnd t = .throw := by
  unfold impulse
  rw [if_neg (by rintro (h' | h'); exacts [absurd h0 (not_lt.2 h'), absurd hend (not_lt.2 h')])]
  refine (sorted_interp hw h2 t).2 ?_
  rintro ⟨⟨r, r1, r2⟩, _⟩
  exact absurd (h r r1) (not_lt.2 r2)

/-! ### The hypotheses can be met -/

namespace Ex72

/-- Three rows that are not in order. -/
def rows : List (ℚ × ℚ) := [(0, 1), (2, 3), (1, 5)]

theorem sorts : Sorts [0, 2, 1] (rows.map Prod.fst) := ⟨by decide, by decide +kernel⟩

theorem table : sortTable (rows.map Prod.fst) (rows.map Prod.snd) [0, 2, 1] = .ok ([0, 1, 2], [1, 5, 3]) := rfl

theorem distinct : ∀ r ∈ rows, ∀ r' ∈ rows, r.1 = r'.1 → r = r' := by decide +kernel

/-- Between the rows, at a row, and at the last row. -/
example : (∃ y, OnLine rows (3 / 2) y ∧ linInterp [0, 1, 2] [1, 5, 3] (3 / 2 : ℚ) = .ok y ∧ y = 4) ∧ linInterp [0, 1, 2] [1, 5, 3] (1 : ℚ) = .ok 5 ∧ linInterp [0, 1, 2] [1, 5, 3] (2 : ℚ) = .throw := by
  obtain ⟨a, v, e, k⟩ := C72_table_partial rows (by decide) [0, 2, 1] sorts
  rw [table] at e
  cases e
  refine ⟨?_, C72_rows rows distinct _ sorts table (1, 5) (by decide +kernel) (by decide +kernel), C72_last_refused rows (by decide) _ sorts table (2, 3) (by decide +kernel)⟩
  obtain ⟨y, y1, y2, _⟩ := (k (3 / 2)).1 (by unfold InRange; decide +kernel)
  refine ⟨y, y1, y2, OnLine.unique distinct y1 ?_⟩
  unfold OnLine
  exact ⟨(1, 5), by decide +kernel, (2, 3), by decide +kernel, by norm_num, by norm_num, by decide +kernel, by norm_num⟩

/-- The rows in another order give the same values. -/
example (args vals : List ℚ) (h : sortTable ([(2, 3), (1, 5), (0, 1)].map Prod.fst) ([(2, 3), (1, 5), (0, 1)].map Prod.snd) [2, 1, 0] = .ok (args, vals)) (x : ℚ) :
    linInterp [0, 1, 2] [1, 5, 3] x = linInterp args vals x :=
  C72_order rows [(2, 3), (1, 5), (0, 1)] (by decide +kernel) (by decide) distinct [0, 2, 1] [2, 1, 0] sorts ⟨by decide, by decide +kernel⟩ table h x

/-- An impulse response. -/
example : ∃ y, impulse ([(0, 1), (1, 5), (2, 3)].map Prod.fst) ([(0, 1), (1, 5), (2, 3)].map Prod.snd) (2 : ℚ) (1 / 2) = .ok y :=
  (C72_impulse [(0, 1), (1, 5), (2, 3)] (by decide) (by decide +kernel) (by decide +kernel) (tEnd := 2) rfl (1 / 2)).imp fun _ h => h.1

example : impulse ([(1, 1), (2, 5)].map Prod.fst) ([(1, 1), (2, 5)].map Prod.snd) (2 : ℚ) (1 / 2) = .throw := C72_impulse_late [(1, 1), (2, 5)] (by decide) (by decide +kernel) (by decide +kernel) (by norm_num) (by norm_num)

end Ex72

end Verif.App
