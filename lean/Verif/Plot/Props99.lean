import Verif.Plot.Model
import Verif.Green.Props42
import Mathlib.Tactic.Linarith
import Mathlib.Tactic.FieldSimp
import Mathlib.Tactic.Ring
import Mathlib.Tactic.NormNum
/-
C99: the pictures of an exported Green's function show its samples where and when they belong.
-/
set_option linter.unusedSectionVars false
namespace Verif.Plot
open Verif Verif.Green

variable {K : Type} [Field K] [LinearOrder K] [IsStrictOrderedRing K] [FloorRing K]

/-! ### Specification -/

/-- The picture has exactly the values `f i j` at the coordinates of the `nr x nz` samples between the given limits. -/
def ShowsAt {α : Type} (pic : List (Vertex K α)) (rx ry : K × K) (nr nz : Nat) (f : Nat → Nat → α) : Prop :=
  ∀ p, p ∈ pic ↔ ∃ i j, i < nr ∧ j < nz ∧ p = ⟨coordAt rx.1 rx.2 nr i, coordAt ry.1 ry.2 nz j, f i j⟩

/-- The point is in the pixel. -/
def Pixel.Contains (p : Pixel K) (x y : K) : Prop := p.left ≤ x ∧ x ≤ p.right ∧ p.bottom ≤ y ∧ y ≤ p.top

/-- Every sample is shown in a pixel that contains its coordinates, and every pixel shows such a sample. -/
def ShowsIn (pic : List (Pixel K)) (rx ry : K × K) (nr nz : Nat) (f : Nat → Nat → K) : Prop :=
  (∀ i j, i < nr → j < nz → ∃ p ∈ pic, p.Contains (coordAt rx.1 rx.2 nr i) (coordAt ry.1 ry.2 nz j) ∧ p.v = f i j) ∧
  ∀ p ∈ pic, ∃ i j, i < nr ∧ j < nz ∧ p.Contains (coordAt rx.1 rx.2 nr i) (coordAt ry.1 ry.2 nz j) ∧ p.v = f i j

/-! ### Proof -/

theorem mem_cells {α : Type} {a : Arr2 α} {p : Nat × Nat} : p ∈ a.cells ↔ p.1 < a.rows ∧ p.2 < a.cols := by
  obtain ⟨i, j⟩ := p
  simp [Arr2.cells]

theorem linspace_eq {a b : K} {n : Nat} (h : 2 ≤ n) (i : Nat) : linspace a b n i = coordAt a b n i := by
  unfold linspace coordAt
  rw [if_neg (by omega)]

theorem plotField_ok {α : Type} {data : Arr2 α} (h : 2 ≤ data.rows ∧ 2 ≤ data.cols) (rx ry : K × K) :
    ∃ pic, plotField data rx ry = .ok pic ∧ ShowsAt pic rx ry data.rows data.cols data.get := by
  refine ⟨_, if_pos ⟨rfl, rfl, rfl, rfl⟩, fun p => ?_⟩
  simp only [List.mem_map, mem_cells, Arr2.transpose]
  constructor
  · rintro ⟨⟨j, i⟩, ⟨h1, h2⟩, rfl⟩
    refine ⟨i, j, h2, h1, ?_⟩
    rw [linspace_eq h.1, linspace_eq h.2]
  · rintro ⟨i, j, h1, h2, rfl⟩
    refine ⟨(j, i), ⟨h2, h1⟩, ?_⟩
    rw [linspace_eq h.1, linspace_eq h.2]

theorem pyIndex_ok {n : Nat} {i : Int} (h0 : 0 ≤ i) (h1 : i < n) : pyIndex n i = .ok i.toNat := if_pos ⟨h0, h1⟩

theorem pyIndex_throw {n : Nat} {i : Int} (h : (n : Int) ≤ i) : pyIndex n i = .throw := by
  unfold pyIndex
  rw [if_neg (by omega), if_neg (by omega)]

theorem pyInt_nonneg {x : K} (h : 0 ≤ x) : pyInt x = ⌊x⌋ := if_pos h

/-- The index of the sample for a position in the range: in bounds, and the position of the sample is at most one step away. -/
theorem near {a b x : K} {n : Nat} (hn : 2 ≤ n) (h0 : a ≤ x) (h1 : x < b) :
    ∃ i < n, pyIndex n (pyInt ((x - a) / (b - a) * n)) = .ok i ∧ |coordAt a b n i - x| ≤ (b - a) / ((n : K) - 1) := by
  have hab : 0 < b - a := by linarith
  have hn' : (0 : K) < n := by exact_mod_cast (by omega : 0 < n)
  have hn1 : (0 : K) < (n : K) - 1 := by
    have : (2 : K) ≤ n := by exact_mod_cast hn
    linarith
  set u := (x - a) / (b - a) with hu
  have hx : x = a + u * (b - a) := by rw [hu]; field_simp; ring
  have u0 : 0 ≤ u := div_nonneg (by linarith) hab.le
  have u1 : u < 1 := (div_lt_one hab).2 (by linarith)
  have y0 : 0 ≤ u * n := mul_nonneg u0 hn'.le
  have y1 : u * n < n := by nlinarith
  have f0 : 0 ≤ ⌊u * n⌋ := Int.floor_nonneg.2 y0
  have f1 : ⌊u * n⌋ < (n : Int) := Int.floor_lt.2 (by exact_mod_cast y1)
  refine ⟨⌊u * n⌋.toNat, by omega, ?_, ?_⟩
  · rw [pyInt_nonneg y0, pyIndex_ok f0 f1]
  · have e : ((⌊u * n⌋.toNat : Nat) : K) = (⌊u * n⌋ : K) := by
      rw [← Int.cast_natCast, Int.toNat_of_nonneg f0]
    have g1 := Int.floor_le (u * n)
    have g2 := Int.lt_floor_add_one (u * n)
    set s := (b - a) / ((n : K) - 1) with hs
    have hb : b - a = s * ((n : K) - 1) := by rw [hs]; field_simp
    have s0 : 0 < s := div_pos hab hn1
    unfold coordAt
    rw [e, ← hs, hx, hb]
    have q : a + (⌊u * n⌋ : K) * s - (a + u * (s * ((n : K) - 1))) = s * ((⌊u * n⌋ : K) - u * n + u) := by ring
    rw [q, abs_mul, abs_of_pos s0]
    have : |(⌊u * n⌋ : K) - u * n + u| ≤ 1 := by rw [abs_le]; constructor <;> linarith
    nlinarith

/-- **C99** (partial), the still: if the exported times begin at zero and the requested time is in the range, but before its end, the pictures show the two components of the samples of one time, which is at most one
    time step away from the requested one, at the coordinates of the samples.
    Missing: the end of the range, and ranges that do not begin at zero (`C99_still_end`, `C99_still_offset`). -/
theorem C99_still_partial (D : Cube K) (rx ry : K × K) {T tval : K} (h2 : 2 ≤ D.nr ∧ 2 ≤ D.nz ∧ 2 ≤ D.nt) (h0 : 0 ≤ tval) (h1 : tval < T) :
    ∃ a b k, still D rx ry (0, T) tval = .ok (a, b) ∧ k < D.nt ∧ |coordAt 0 T D.nt k - tval| ≤ T / ((D.nt : K) - 1) ∧
      ShowsAt a rx ry D.nr D.nz (fun i j => D.get i j k 0) ∧ ShowsAt b rx ry D.nr D.nz (fun i j => D.get i j k 1) := by
  obtain ⟨k, hk, hi, hc⟩ := near h2.2.2 h0 h1
  rw [sub_zero] at hc
  obtain ⟨a, ha, sa⟩ := plotField_ok (data := ⟨D.nr, D.nz, fun i j => D.get i j k 0⟩) ⟨h2.1, h2.2.1⟩ rx ry
  obtain ⟨b, hb, sb⟩ := plotField_ok (data := ⟨D.nr, D.nz, fun i j => D.get i j k 1⟩) ⟨h2.1, h2.2.1⟩ rx ry
  refine ⟨a, b, k, ?_, hk, hc, sa, sb⟩
  have hT : T - 0 ≠ 0 := by rw [sub_zero]; exact (lt_of_le_of_lt h0 h1).ne'
  unfold still pyDiv
  rw [if_neg hT]
  simp only [Res.ok_bind]
  have e : (D.nt : K) / (T - 0) * tval = (tval - 0) / (T - 0) * D.nt := by rw [sub_zero tval]; ring
  rw [e, hi]
  simp only [Res.ok_bind]
  rw [ha]
  simp only [Res.ok_bind]
  rw [hb]
  rfl

/-- The last time of the export cannot be drawn: the index is past the end. -/
theorem C99_still_end (D : Cube K) (rx ry : K × K) {T : K} (hT : 0 < T) : still D rx ry (0, T) T = .throw := by
  unfold still pyDiv
  have hT' : T - 0 ≠ 0 := by rw [sub_zero]; exact hT.ne'
  rw [if_neg hT']
  simp only [Res.ok_bind]
  have e : (D.nt : K) / (T - 0) * T = D.nt := by rw [sub_zero, div_mul_cancel₀ _ hT.ne']
  rw [e, pyInt_nonneg (Nat.cast_nonneg _), Int.floor_natCast, pyIndex_throw le_rfl]
  rfl

/-- With times that do not begin at zero the wrong samples are shown: with three samples, at the times `T`, `2 T` and `3 T`, the picture for the time of the first one shows the second one, and there is none for the others. -/
theorem C99_still_offset (D : Cube K) (rx ry : K × K) {T : K} (hT : 0 < T) (h2 : 2 ≤ D.nr ∧ 2 ≤ D.nz) (h3 : D.nt = 3) :
    (∃ a b, still D rx ry (T, 3 * T) (coordAt T (3 * T) 3 0) = .ok (a, b) ∧ ShowsAt a rx ry D.nr D.nz (fun i j => D.get i j 1 0) ∧ ShowsAt b rx ry D.nr D.nz (fun i j => D.get i j 1 1)) ∧
      still D rx ry (T, 3 * T) (coordAt T (3 * T) 3 1) = .throw ∧ still D rx ry (T, 3 * T) (coordAt T (3 * T) 3 2) = .throw := by
  have hd : 3 * T - T ≠ 0 := by
    have : 3 * T - T = 2 * T := by ring
    rw [this]; exact (mul_pos two_pos hT).ne'
  have c0 : coordAt T (3 * T) 3 0 = T := by unfold coordAt; simp
  have c1 : coordAt T (3 * T) 3 1 = 2 * T := by unfold coordAt; push_cast; norm_num; ring
  have c2 : coordAt T (3 * T) 3 2 = 3 * T := by unfold coordAt; push_cast; norm_num; ring
  have q : ∀ m : K, (3 : Nat) / (3 * T - T) * (m * T) = 3 * m / 2 := fun m => by
    have : 3 * T - T = 2 * T := by ring
    rw [this]; have := hT.ne'; push_cast; field_simp
  have i0 : pyInt ((3 : Nat) / (3 * T - T) * T) = 1 := by
    have := q 1
    rw [one_mul] at this
    rw [this, pyInt_nonneg (by norm_num)]
    exact Int.floor_eq_iff.2 ⟨by norm_num, by norm_num⟩
  have i1 : pyInt ((3 : Nat) / (3 * T - T) * (2 * T)) = 3 := by
    rw [q 2, pyInt_nonneg (by norm_num)]
    exact Int.floor_eq_iff.2 ⟨by norm_num, by norm_num⟩
  have i2 : pyInt ((3 : Nat) / (3 * T - T) * (3 * T)) = 4 := by
    rw [q 3, pyInt_nonneg (by norm_num)]
    exact Int.floor_eq_iff.2 ⟨by norm_num, by norm_num⟩
  rw [c0, c1, c2]
  unfold still pyDiv
  simp only [if_neg hd, Res.ok_bind, h3, i0, i1, i2]
  refine ⟨?_, rfl, rfl⟩
  obtain ⟨a, ha, sa⟩ := plotField_ok (data := ⟨D.nr, D.nz, fun i j => D.get i j 1 0⟩) h2 rx ry
  obtain ⟨b, hb, sb⟩ := plotField_ok (data := ⟨D.nr, D.nz, fun i j => D.get i j 1 1⟩) h2 rx ry
  refine ⟨a, b, ?_, sa, sb⟩
  have : pyIndex 3 1 = .ok 1 := rfl
  rw [this]
  simp only [Res.ok_bind]
  rw [ha]
  simp only [Res.ok_bind]
  rw [hb]
  rfl

/-! #### The annotations -/

/-- **C99** (partial), the annotations: the series drawn for a position in the range (but not at its end) are those of a sample at most one step away from it, along both axes.
    Missing: positions at the end of a range (`C99_annotation_end`); and the script with the annotations does not get there (`C99_annotated`). -/
theorem C99_annotation_partial (D : Cube K) {rx ry pos : K × K} (h2 : 2 ≤ D.nr ∧ 2 ≤ D.nz) (hx : rx.1 ≤ pos.1 ∧ pos.1 < rx.2) (hy : ry.1 ≤ pos.2 ∧ pos.2 < ry.2) :
    ∃ i j, i < D.nr ∧ j < D.nz ∧ annotation D rx ry pos = .ok (fun k => D.get i j k 1, fun k => D.get i j k 0) ∧
      |coordAt rx.1 rx.2 D.nr i - pos.1| ≤ (rx.2 - rx.1) / ((D.nr : K) - 1) ∧ |coordAt ry.1 ry.2 D.nz j - pos.2| ≤ (ry.2 - ry.1) / ((D.nz : K) - 1) := by
  obtain ⟨i, hi, e1, c1⟩ := near h2.1 hx.1 hx.2
  obtain ⟨j, hj, e2, c2⟩ := near h2.2 hy.1 hy.2
  refine ⟨i, j, hi, hj, ?_, c1, c2⟩
  have n1 : rx.2 - rx.1 ≠ 0 := by have := hx.1.trans_lt hx.2; exact (sub_pos.2 this).ne'
  have n2 : ry.2 - ry.1 ≠ 0 := by have := hy.1.trans_lt hy.2; exact (sub_pos.2 this).ne'
  unfold annotation posIndex pyDiv
  simp only [if_neg n1, if_neg n2, Res.ok_bind, e1, e2]

/-- A position at the upper end of the range: the index is past the end. -/
theorem C99_annotation_end (D : Cube K) {rx ry : K × K} (y : K) (hx : rx.1 < rx.2) : annotation D rx ry (rx.2, y) = .throw := by
  have n1 : rx.2 - rx.1 ≠ 0 := (sub_pos.2 hx).ne'
  unfold annotation posIndex pyDiv
  simp only [if_neg n1, Res.ok_bind]
  rw [div_self n1, one_mul, pyInt_nonneg (Nat.cast_nonneg _), Int.floor_natCast, pyIndex_throw le_rfl]
  rfl

/-- A position below the range is not rejected: two steps below the begin of a range of four samples (at 0, 1, 2, 3), the series of the third sample is drawn. -/
theorem C99_annotation_below (D : Cube K) (h4 : D.nr = 4) (h2 : 2 ≤ D.nz) : annotation D (0, 3) (0, 1) (-2, 0) = .ok (fun k => D.get 2 0 k 1, fun k => D.get 2 0 k 0) := by
  have e1 : pyInt (((-2 : K) - 0) / (3 - 0) * (4 : Nat)) = -2 := by
    unfold pyInt
    rw [if_neg (by norm_num)]
    exact Int.ceil_eq_iff.2 ⟨by norm_num, by norm_num⟩
  have e2 : pyInt (((0 : K) - 0) / (1 - 0) * (D.nz : Nat)) = 0 := by
    unfold pyInt
    simp
  unfold annotation posIndex pyDiv
  rw [h4]
  simp only
  rw [if_neg (by norm_num), if_neg (by norm_num)]
  simp only [Res.ok_bind]
  rw [e1, e2, pyIndex_ok le_rfl (by omega : (0 : Int) < D.nz)]
  rfl

/-- The script with the annotations always fails: it changes an array that it has loaded read-only. -/
theorem C99_annotated (D : Cube K) (s : K) (rx ry : K × K) (annotations : List (K × K)) : annotated D s rx ry annotations = .throw := rfl

/-- The times of the resampled series: every sample of the series is drawn at its time. `os / ds` is the factor. -/
theorem C99_oversampled {t0 t1 : K} {n os ds q i : Nat} (hn : 2 ≤ n) (hds : 0 < ds) (hq : 0 < q) (hos : os = q * ds) : oversampled (linspace t0 t1 n) n os ds (q * i) = coordAt t0 t1 n i := by
  have e : n * os / ds = n * q := by rw [hos, ← Nat.mul_assoc, Nat.mul_div_cancel _ hds]
  have hn' : (0 : K) < n := by exact_mod_cast (by omega : 0 < n)
  have hq' : (0 : K) < q := by exact_mod_cast hq
  have hn1 : (0 : K) < (n : K) - 1 := by
    have : (2 : K) ≤ n := by exact_mod_cast hn
    linarith
  unfold oversampled
  rw [e, linspace_eq hn, linspace_eq hn, linspace_eq hn]
  unfold coordAt
  have c : ((n - 1 : Nat) : K) = (n : K) - 1 := by rw [Nat.cast_sub (by omega)]; simp
  rw [c]
  push_cast
  field_simp
  ring

/-! #### The maximum -/

theorem foldl_max {α : Type} (f : α → K) : ∀ (l : List α) (m : K), m ≤ l.foldl (fun m k => max m (f k)) m ∧ (∀ k ∈ l, f k ≤ l.foldl (fun m k => max m (f k)) m) ∧
    (l.foldl (fun m k => max m (f k)) m = m ∨ ∃ k ∈ l, l.foldl (fun m k => max m (f k)) m = f k)
  | [], m => ⟨le_rfl, by simp, .inl rfl⟩
  | a :: l, m => by
      obtain ⟨h1, h2, h3⟩ := foldl_max f l (max m (f a))
      refine ⟨(le_max_left _ _).trans h1, fun k hk => ?_, ?_⟩
      · rcases List.mem_cons.1 hk with rfl | hk
        · exact (le_max_right _ _).trans h1
        · exact h2 k hk
      · rcases h3 with h3 | ⟨k, hk, h3⟩
        · rcases max_choice m (f a) with e | e
          · left; show List.foldl _ (max m (f a)) l = m; rw [h3, e]
          · right; exact ⟨a, by simp, by show List.foldl _ (max m (f a)) l = f a; rw [h3, e]⟩
        · right; exact ⟨k, by simp [hk], h3⟩

/-- `M` is the greatest of the numbers `f 0, ..., f (n - 1)`. -/
def IsMax (f : Nat → K) (n : Nat) (M : K) : Prop := (∀ k < n, f k ≤ M) ∧ ∃ k < n, f k = M

theorem fold_isMax (f : Nat → K) {n : Nat} (hn : 0 < n) : IsMax f n ((List.range (n - 1)).foldl (fun m k => max m (f (k + 1))) (f 0)) := by
  obtain ⟨h1, h2, h3⟩ := foldl_max (fun k => f (k + 1)) (List.range (n - 1)) (f 0)
  refine ⟨fun k hk => ?_, ?_⟩
  · cases k with
    | zero => exact h1
    | succ k => exact h2 k (List.mem_range.2 (by omega))
  · rcases h3 with h3 | ⟨k, hk, h3⟩
    · exact ⟨0, hn, h3.symm⟩
    · exact ⟨k + 1, by have := List.mem_range.1 hk; omega, h3.symm⟩

/-- **C99**, the picture of the maximum: it shows, at the coordinates of the samples, the greatest field strength over time relative to the greatest one of all; NaN if the field is zero everywhere. -/
theorem C99_absmax (norm : K → K → K) (D : Cube K) (rx ry : K × K) (h2 : 2 ≤ D.nr ∧ 2 ≤ D.nz) (ht : 0 < D.nt) :
    ∃ (pic : List (Vertex K (Option K))) (m : Nat → Nat → K) (top : K), absmax norm D rx ry = .ok pic ∧ (∀ i j, i < D.nr → j < D.nz → IsMax (fun k => norm (D.get i j k 0) (D.get i j k 1)) D.nt (m i j)) ∧
      (∀ i j, i < D.nr → j < D.nz → m i j ≤ top) ∧ (∃ i j, i < D.nr ∧ j < D.nz ∧ m i j = top) ∧
      ShowsAt pic rx ry D.nr D.nz (fun i j => if top = 0 then none else some (m i j / top)) := by
  set m : Nat → Nat → K := fun i j => (List.range (D.nt - 1)).foldl (fun m k => max m (norm (D.get i j (k + 1) 0) (D.get i j (k + 1) 1))) (norm (D.get i j 0 0) (D.get i j 0 1)) with hm
  have hpos : 0 < D.nr * D.nz := Nat.mul_pos (by omega) (by omega)
  set top : K := (List.range (D.nr * D.nz - 1)).foldl (fun t l => max t (m ((l + 1) / D.nz) ((l + 1) % D.nz))) (m (0 / D.nz) (0 % D.nz)) with htop
  have hM : IsMax (fun l => m (l / D.nz) (l % D.nz)) (D.nr * D.nz) top := fold_isMax (fun l => m (l / D.nz) (l % D.nz)) hpos
  obtain ⟨pic, hp, hs⟩ := plotField_ok (data := ⟨D.nr, D.nz, fun i j => if top = 0 then none else some (m i j / top)⟩) h2 rx ry
  refine ⟨pic, m, top, ?_, fun i j _ _ => fold_isMax (fun k => norm (D.get i j k 0) (D.get i j k 1)) ht, fun i j hi hj => ?_, ?_, hs⟩
  · unfold absmax
    rw [if_neg (by omega)]
    have hmax : npMax2 (⟨D.nr, D.nz, m⟩ : Arr2 K) = .ok top := by
      unfold npMax2
      rw [if_neg (by show ¬ D.nz = 0; omega)]
      show npMax (fun l => m (l / D.nz) (l % D.nz)) (D.nr * D.nz) = _
      obtain ⟨n, hn⟩ : ∃ n, D.nr * D.nz = n + 1 := ⟨D.nr * D.nz - 1, by omega⟩
      rw [htop, hn]
      rfl
    show (npMax2 (⟨D.nr, D.nz, m⟩ : Arr2 K)).bind _ = _
    rw [hmax]
    exact hp
  · have := hM.1 (i * D.nz + j) (by
      have : (i + 1) * D.nz ≤ D.nr * D.nz := Nat.mul_le_mul_right _ hi
      rw [Nat.add_mul] at this
      omega)
    have hz : 0 < D.nz := by omega
    simp only at this
    rw [Nat.add_comm (i * D.nz), Nat.add_mul_div_right _ _ hz, Nat.div_eq_of_lt hj, Nat.zero_add, Nat.add_mul_mod_self_right, Nat.mod_eq_of_lt hj] at this
    exact this
  · obtain ⟨l, hl, e⟩ := hM.2
    have hz : 0 < D.nz := by omega
    exact ⟨l / D.nz, l % D.nz, Nat.div_lt_of_lt_mul (by rw [Nat.mul_comm]; exact hl), Nat.mod_lt _ hz, e⟩

/-! #### The animation -/

theorem collect {α : Type} (f : Nat → Res α) : ∀ (l : List Nat), (∀ i ∈ l, ∃ x, f i = .ok x) →
    ∃ r, l.foldr (fun it acc => (f it).bind fun x => acc.bind fun r => .ok (x :: r)) (.ok []) = .ok r ∧ r.length = l.length ∧ ∀ (n i : Nat), l[n]? = some i → ∃ x, f i = .ok x ∧ r[n]? = some x
  | [], _ => ⟨[], rfl, rfl, by simp⟩
  | a :: l, h => by
      obtain ⟨x, hx⟩ := h a (by simp)
      obtain ⟨r, h1, h2, h3⟩ := collect f l fun i hi => h i (by simp [hi])
      refine ⟨x :: r, ?_, by simp [h2], fun n i hn => ?_⟩
      · simp only [List.foldr_cons]
        rw [h1, hx]
        rfl
      · cases n with
        | zero => simp at hn; subst hn; exact ⟨x, hx, rfl⟩
        | succ n => simpa using h3 n i (by simpa using hn)

/-- The coordinates of a sample are in the interval with the same number, if the range is divided into as many intervals as there are samples. -/
theorem in_cell {a b : K} {n i : Nat} (hn : 2 ≤ n) (hi : i < n) (hab : a ≤ b) : a + i * ((b - a) / n) ≤ coordAt a b n i ∧ coordAt a b n i ≤ a + (i + 1) * ((b - a) / n) := by
  have hn' : (0 : K) < n := by exact_mod_cast (by omega : 0 < n)
  have hn1 : (0 : K) < (n : K) - 1 := by
    have : (2 : K) ≤ n := by exact_mod_cast hn
    linarith
  have hi' : (i : K) + 1 ≤ n := by exact_mod_cast hi
  have hi0 : (0 : K) ≤ i := Nat.cast_nonneg i
  set s := (b - a) / ((n : K) - 1) / n with hs
  have hs0 : 0 ≤ s := div_nonneg (div_nonneg (sub_nonneg.2 hab) hn1.le) hn'.le
  have e1 : (b - a) / (n : K) = s * ((n : K) - 1) := by rw [hs]; field_simp
  have e2 : (b - a) / ((n : K) - 1) = s * n := by rw [hs]; field_simp
  unfold coordAt
  rw [e1, e2]
  constructor
  · nlinarith [mul_nonneg hi0 hs0]
  · nlinarith [mul_nonneg (sub_nonneg.2 hi') hs0]

theorem imshow_shows {nr nz : Nat} (h2 : 2 ≤ nr ∧ 2 ≤ nz) (f : Nat → Nat → K) {rx ry : K × K} (hx : rx.1 ≤ rx.2) (hy : ry.1 ≤ ry.2) :
    ShowsIn (imshow (Arr2.flip (Arr2.transpose ⟨nr, nz, f⟩)) rx ry) rx ry nr nz f := by
  have key : ∀ i j, i < nr → j < nz → (⟨rx.1 + i * ((rx.2 - rx.1) / nr), rx.1 + (i + 1) * ((rx.2 - rx.1) / nr), ry.2 - ((nz - 1 - j : Nat) + 1) * ((ry.2 - ry.1) / nz),
      ry.2 - (nz - 1 - j : Nat) * ((ry.2 - ry.1) / nz), f i j⟩ : Pixel K).Contains (coordAt rx.1 rx.2 nr i) (coordAt ry.1 ry.2 nz j) := by
    intro i j hi hj
    obtain ⟨a1, a2⟩ := in_cell h2.1 hi hx
    obtain ⟨b1, b2⟩ := in_cell h2.2 hj hy
    have c : ((nz - 1 - j : Nat) : K) = (nz : K) - 1 - j := by
      rw [Nat.cast_sub (by omega), Nat.cast_sub (by omega)]; simp
    have hz : (0 : K) < nz := by exact_mod_cast (by omega : 0 < nz)
    have e : ry.2 = ry.1 + nz * ((ry.2 - ry.1) / nz) := by rw [mul_div_cancel₀ _ hz.ne']; ring
    refine ⟨a1, a2, ?_, ?_⟩
    · rw [c]; nlinarith
    · rw [c]; nlinarith
  constructor
  · intro i j hi hj
    refine ⟨_, List.mem_map.2 ⟨(nz - 1 - j, i), mem_cells.2 ⟨by show nz - 1 - j < nz; omega, hi⟩, rfl⟩, key i j hi hj, ?_⟩
    show f i (nz - 1 - (nz - 1 - j)) = f i j
    congr 1
    omega
  · intro p hp
    obtain ⟨⟨r, i⟩, hc, rfl⟩ := List.mem_map.1 hp
    obtain ⟨h1, h3⟩ := mem_cells.1 hc
    replace h1 : r < nz := h1
    replace h3 : i < nr := h3
    refine ⟨i, nz - 1 - r, h3, by omega, ?_, rfl⟩
    have := key i (nz - 1 - r) h3 (by omega)
    have e : nz - 1 - (nz - 1 - r) = r := by omega
    rw [e] at this
    exact this

/-- **C99** (partial), the animation: there are as many frames as there are multiples of the step in the number of samples. Frame `m` shows the component of the samples number `ds * m` in time, each in a pixel that
    contains its coordinates; and the time written on the frame is too early by at most the `nt`-th part of the range of times.
    Missing: the exact time (`C99_label`). -/
theorem C99_animation_partial (D : Cube K) (c : Nat) {rx ry rt : K × K} {ds : Nat} (h2 : 2 ≤ D.nr ∧ 2 ≤ D.nz ∧ 2 ≤ D.nt) (hds : 0 < ds) (hx : rx.1 ≤ rx.2) (hy : ry.1 ≤ ry.2) (ht : rt.1 ≤ rt.2) :
    ∃ frames, animation D c rx ry rt ds = .ok frames ∧ frames.length = D.nt / ds ∧ ∀ m < D.nt / ds, ds * m < D.nt ∧ ∃ pic label, frames[m]? = some (pic, label) ∧
      ShowsIn pic rx ry D.nr D.nz (fun i j => D.get i j (ds * m) c) ∧ label ≤ coordAt rt.1 rt.2 D.nt (ds * m) ∧ coordAt rt.1 rt.2 D.nt (ds * m) ≤ label + (rt.2 - rt.1) / D.nt := by
  have lt : ∀ m < D.nt / ds, ds * m < D.nt := fun m hm => by
    have h1 : (m + 1) * ds ≤ D.nt / ds * ds := Nat.mul_le_mul_right _ hm
    have h3 := Nat.div_mul_le_self D.nt ds
    rw [Nat.add_mul, Nat.mul_comm m] at h1
    omega
  have fr : ∀ m < D.nt / ds, frame D c rx ry rt ds m =
      .ok (imshow (Arr2.flip (Arr2.transpose ⟨D.nr, D.nz, fun i j => D.get i j (ds * m) c⟩)) rx ry, rt.1 + (ds * m : Nat) * (rt.2 - rt.1) / D.nt) := fun m hm => by
    unfold frame
    have := lt m hm
    rw [pyIndex_ok (by positivity) (by exact_mod_cast this)]
    rfl
  obtain ⟨r, h3, h4, h5⟩ := collect (frame D c rx ry rt ds) (List.range (D.nt / ds)) fun m hm => ⟨_, fr m (List.mem_range.1 hm)⟩
  refine ⟨r, ?_, by simpa using h4, fun m hm => ⟨lt m hm, ?_⟩⟩
  · unfold animation
    rw [if_neg (by omega)]
    exact h3
  · obtain ⟨x, e1, e2⟩ := h5 m m (by simp [hm])
    rw [fr m hm] at e1
    cases e1
    obtain ⟨b1, b2⟩ := in_cell h2.2.2 (lt m hm) ht
    refine ⟨_, _, e2, imshow_shows ⟨h2.1, h2.2.1⟩ _ hx hy, ?_, ?_⟩
    · rw [mul_div_assoc]; exact b1
    · rw [mul_div_assoc]; linarith

/-- The time written on a frame is the one of its samples only on the first frame. -/
theorem C99_label (D : Cube K) (c : Nat) {rx ry rt : K × K} {ds m : Nat} (h2 : 2 ≤ D.nt) (hds : 0 < ds) (ht : rt.1 < rt.2) {pic : List (Pixel K)} {label : K} (h : frame D c rx ry rt ds m = .ok (pic, label)) :
    label = coordAt rt.1 rt.2 D.nt (ds * m) ↔ m = 0 := by
  have hn' : (0 : K) < D.nt := by exact_mod_cast (by omega : 0 < D.nt)
  have hn1 : (0 : K) < (D.nt : K) - 1 := by
    have : (2 : K) ≤ D.nt := by exact_mod_cast h2
    linarith
  have hl : label = rt.1 + (ds * m : Nat) * (rt.2 - rt.1) / D.nt := by
    unfold frame at h
    obtain ⟨k, _, h⟩ := Res.bind_eq_ok.1 h
    cases h
    rfl
  rw [hl]
  unfold coordAt
  constructor
  · intro e
    by_contra hm
    have hp : (0 : K) < ((ds * m : Nat) : K) := by exact_mod_cast Nat.mul_pos hds (by omega)
    have e' : ((ds * m : Nat) : K) * (rt.2 - rt.1) / D.nt = ((ds * m : Nat) : K) * ((rt.2 - rt.1) / ((D.nt : K) - 1)) := by linarith
    rw [mul_div_assoc] at e'
    have e2 := mul_left_cancel₀ hp.ne' e'
    rw [div_eq_div_iff hn'.ne' hn1.ne'] at e2
    have : (0 : K) < rt.2 - rt.1 := sub_pos.2 ht
    nlinarith
  · rintro rfl
    simp

/-! ### Examples -/

namespace Ex99

/-- 2 x 2 x 3 samples. -/
def D : Cube ℚ := ⟨2, 2, 3, fun i j k c => 1000 * i + 100 * j + 10 * k + c⟩

/-- The samples at times 0, 5, 10; the picture for time 6 shows one of the last two. -/
example : ∃ a b k, still D (0, 1) (-1, 1) (0, 10) 6 = .ok (a, b) ∧ |5 * (k : ℚ) - 6| ≤ 5 ∧ (⟨1, -1, 1000 + 10 * k⟩ : Vertex ℚ ℚ) ∈ a := by
  obtain ⟨a, b, k, h1, hk, h2, h3, _⟩ := C99_still_partial D (0, 1) (-1, 1) (T := 10) (tval := 6) (by decide) (by norm_num) (by norm_num)
  refine ⟨a, b, k, h1, ?_, (h3 _).2 ⟨1, 0, by decide, by decide, ?_⟩⟩
  · replace h2 : |(0 : ℚ) + k * ((10 - 0) / (((3 : Nat) : ℚ) - 1)) - 6| ≤ 10 / (((3 : Nat) : ℚ) - 1) := h2
    have e1 : (0 : ℚ) + k * ((10 - 0) / (((3 : Nat) : ℚ) - 1)) - 6 = 5 * (k : ℚ) - 6 := by push_cast; ring
    have e2 : (10 : ℚ) / (((3 : Nat) : ℚ) - 1) = 5 := by norm_num
    rwa [e1, e2] at h2
  · have c1 : coordAt (0 : ℚ) 1 D.nr 1 = 1 := by simp [coordAt, D]; norm_num
    have c2 : coordAt (-1 : ℚ) 1 D.nz 0 = -1 := by simp [coordAt]
    simp only [c1, c2]
    simp [D]

/-- Three frames, at 0, 5 and 10; on the last one is 20/3. -/
example : ∃ frames, animation D 1 (0, 1) (-1, 1) (0, 10) 1 = .ok frames ∧ frames.length = 3 ∧ ∃ pic label, frames[2]? = some (pic, label) ∧ label ≤ 10 ∧ 10 ≤ label + 10 / 3 ∧
    ∃ p ∈ pic, p.Contains 1 (-1) ∧ p.v = 1021 := by
  obtain ⟨fr, h1, h2, h3⟩ := C99_animation_partial D 1 (rx := (0, 1)) (ry := (-1, 1)) (rt := (0, 10)) (ds := 1) (by decide) (by decide) (by norm_num) (by norm_num) (by norm_num)
  obtain ⟨_, pic, label, h4, h5, h6, h7⟩ := h3 2 (by decide)
  refine ⟨fr, h1, h2, pic, label, h4, ?_, ?_, ?_⟩
  · refine h6.trans (le_of_eq ?_); simp [coordAt, D]; norm_num
  · have e : coordAt (0 : ℚ) 10 D.nt (1 * 2) = 10 := by simp [coordAt, D]; norm_num
    simp only at h7
    rw [e] at h7
    refine h7.trans (le_of_eq ?_)
    simp [D]
  · obtain ⟨p, hp, hc, hv⟩ := h5.1 1 0 (by decide) (by decide)
    refine ⟨p, hp, ?_, ?_⟩
    · have e1 : coordAt (0 : ℚ) 1 D.nr 1 = 1 := by simp [coordAt, D]; norm_num
      have e2 : coordAt (-1 : ℚ) 1 D.nz 0 = -1 := by simp [coordAt]
      simp only at hc
      rw [e1, e2] at hc
      exact hc
    · rw [hv]; simp [D]; norm_num

/-- The greatest field strength: with the sum of the components as norm it is in the sample `(1, 1)`. -/
example : ∃ pic, absmax (fun x y => |x| + |y|) D (0, 1) (-1, 1) = .ok pic ∧ (⟨1, 1, some 1⟩ : Vertex ℚ (Option ℚ)) ∈ pic := by
  obtain ⟨pic, m, top, h1, h2, h3, ⟨i, j, hi, hj, h4⟩, h5⟩ := C99_absmax (fun x y : ℚ => |x| + |y|) D (0, 1) (-1, 1) (by decide) (by decide)
  have le : m 1 1 = 2241 := by
    obtain ⟨a, k, hk, e⟩ := h2 1 1 (by decide) (by decide)
    have a2 := a 2 (by decide)
    have hk : k < 3 := hk
    simp only [D] at a2 e
    match k, hk with
    | 0, _ => norm_num at a2 e; linarith
    | 1, _ => norm_num at a2 e; linarith
    | 2, _ => norm_num at a2 e; linarith
  have h3' := h3 1 1 (by decide) (by decide)
  have le2 : top ≤ 2241 := by
    rw [← h4]
    obtain ⟨_, k, hk, e⟩ := h2 i j hi hj
    rw [← e]
    have hk : k < 3 := hk
    have hi : i < 2 := hi
    have hj : j < 2 := hj
    simp only [D]
    have q1 : (i : ℚ) ≤ 1 := by exact_mod_cast Nat.le_of_lt_succ hi
    have q2 : (j : ℚ) ≤ 1 := by exact_mod_cast Nat.le_of_lt_succ hj
    have q3 : (k : ℚ) ≤ 2 := by exact_mod_cast Nat.le_of_lt_succ hk
    rw [abs_of_nonneg (by positivity), abs_of_nonneg (by positivity)]
    push_cast
    linarith
  refine ⟨pic, h1, (h5 _).2 ⟨1, 1, by decide, by decide, ?_⟩⟩
  have ht : top = 2241 := by linarith
  rw [ht]
  beta_reduce
  rw [le]
  simp [coordAt, D]
  norm_num

/-- The samples of the resampled series with factor 5. -/
example : oversampled (linspace (0 : ℚ) 10 3) 3 10 2 5 = 5 := by
  have := C99_oversampled (t0 := (0 : ℚ)) (t1 := 10) (n := 3) (os := 10) (ds := 2) (q := 5) (i := 1) (by decide) (by decide) (by decide) rfl
  rw [this]
  simp [coordAt]
  norm_num

/-- A position between the samples. -/
example : ∃ i j, i < 2 ∧ j < 2 ∧ annotation D (0, 1) (-1, 1) (1 / 2, 0) = .ok (fun k => D.get i j k 1, fun k => D.get i j k 0) := by
  obtain ⟨i, j, h1, h2, h3, _⟩ := C99_annotation_partial D (rx := (0, 1)) (ry := (-1, 1)) (pos := (1 / 2, 0)) (by decide) (by norm_num) (by norm_num)
  exact ⟨i, j, h1, h2, h3⟩

end Ex99

end Verif.Plot
