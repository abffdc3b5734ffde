import Verif.Green.Props38
import Verif.Green.Props39
import Verif.Meep.Props44
/-
Requests to a Green's function whose chunks form a regular grid: what a Green's function object answers, in terms of the sampled field (used for C67 and C69).
-/
set_option linter.unusedSectionVars false
namespace Verif.Green
open Verif Verif.ND Verif.Dist Verif.Tree Verif.Bytes Verif.Ops Verif.NullSup

/-! ### Specification -/

/-- A chunked array of samples: the grid points are `0, ..., nr`, `0, ..., nz`, `0, ..., nt`; there are chunks of `pts` points in each direction (less at the ends), stored with `overlap` more points on each
    side; `nulls`: some chunks may be recorded as "all zero" instead of being stored. -/
structure Grid where
  nr : Nat
  nz : Nat
  nt : Nat
  pts : Nat
  overlap : Nat
  nulls : Bool

/-- The grid index `e` is the end of a chunk, along an axis with the grid points `0, ..., n` and chunks of `pts` points. -/
def ChunkEnd (pts n : Nat) (e : Int) : Prop := e = n + 1 ∨ (pts : Int) ∣ e

/-- The position `(x, y, t)` (in units of the grid steps) belongs to a grid cell, or to the cells that begin at the last grid points. -/
def Grid.Has (g : Grid) (x y t : ℝ) : Prop := (0 ≤ x ∧ x < g.nr + 1) ∧ (0 ≤ y ∧ y < g.nz + 1) ∧ 0 ≤ t ∧ t < g.nt + 1

/-- The position may be used: if the overlap is just enough for the kernel it must not be exactly on the end of a chunk in time, in the last cell of the chunk along both other axes (C37), and with the cubic
    kernel (support 2), if it is in the first cell next to the axis, it must not be in the first or the last two cells along the other axes (the corners of the overlap are not initialised, C32). -/
def Usable (kn : Kern ℝ) (g : Grid) (x y t : ℝ) : Prop :=
  (kn.support = g.overlap → ¬ (ChunkEnd g.pts g.nr (⌊x⌋ + 1) ∧ ChunkEnd g.pts g.nz (⌊y⌋ + 1) ∧ ∃ e : Int, t = e ∧ ChunkEnd g.pts g.nt e)) ∧
    (kn.support = 2 → 1 ≤ x ∨ (1 ≤ y ∧ y < (g.nz : ℝ) - 1) ∧ 1 ≤ t ∧ t < (g.nt : ℝ) - 1)

/-- The chunk with the position `(x, y, t)` has a sample that is not zero. -/
def Carries (A : Nat → Int → Int → Int → ℝ) (g : Grid) (x y t : ℝ) : Prop :=
  ∃ (c : Nat) (i j k : Int), c < 2 ∧ ((0 ≤ i ∧ i ≤ g.nr) ∧ (0 ≤ j ∧ j ≤ g.nz) ∧ 0 ≤ k ∧ k ≤ g.nt) ∧ (i / g.pts = ⌊x⌋ / g.pts ∧ j / g.pts = ⌊y⌋ / g.pts ∧ k / g.pts = ⌊t⌋ / g.pts) ∧ A c i j k ≠ 0

/-- Of two samples at the positions `(x, y, t)`, `(x, y, t')`, one after the other, the first one does not disturb the second: they are in the same chunk or the chunk of the first one is not zero (C38: the
    samples after those in an "all zero" chunk end up at the wrong place). -/
def Apart (A : Nat → Int → Int → Int → ℝ) (g : Grid) (x y t t' : ℝ) : Prop :=
  g.nulls = true → g.Has x y t → g.Has x y t' → ⌊t⌋ / (g.pts : Int) = ⌊t'⌋ / (g.pts : Int) ∨ Carries A g x y t

/-- A request for the inner products at the position `(r, z)` and the `n` times `t0 + k * dt`. -/
structure SamplesOk (G : GMeta ℝ) (kn : Kern ℝ) (A : Nat → Int → Int → Int → ℝ) (g : Grid) (r z t0 dt : ℝ) (n : Nat) : Prop where
  step : 0 < dt
  many : n < 2 ^ 62
  fits : ((g.nt : ℝ) + 1) / (dt / G.dt) < 2 ^ 62
  first : 0 ≤ G.t t0
  pos : (0 ≤ G.x r ∧ G.x r < g.nr + 1) ∧ (0 ≤ G.y z ∧ G.y z < g.nz + 1)
  inside : ∀ k : Nat, k < n → g.Has (G.x r) (G.y z) (G.t (t0 + k * dt)) ∧ Usable kn g (G.x r) (G.y z) (G.t (t0 + k * dt))
  apart : ∀ j k : Nat, j < k → k < n → Apart A g (G.x r) (G.y z) (G.t (t0 + j * dt)) (G.t (t0 + k * dt))

/-- A request for the signal of a charge that moves on a segment. The conditions concern the integration points and the causal pairs of an integration point and a sample. -/
structure SignalOk (G : GMeta ℝ) (kn : Kern ℝ) (A : Nat → Int → Int → Int → ℝ) (g : Grid) (seg : Segment ℝ) (tsig tsamp : ℝ) (n : Nat) (oob : OOB) : Prop where
  order : seg.t0 < seg.t1
  samp : 0 < tsamp
  num : seg.t1 - seg.t0 < 2 ^ 61
  many : n < 2 ^ 62
  int : ∀ p ≤ intervals seg, -2 ^ 31 < (lineTime seg p - tsig) / tsamp ∧ (lineTime seg p - tsig) / tsamp ≤ 2 ^ 31 - 1
  fits : ((g.nt : ℝ) + 1) / (tsamp / G.dt) < 2 ^ 62
  x : ∀ p ≤ intervals seg, 0 ≤ G.x (lineR seg p) ∧ G.x (lineR seg p) < 2 ^ 62
  y : ∀ p ≤ intervals seg, 0 ≤ G.y (lineZ seg p) ∧ G.y (lineZ seg p) < 2 ^ 62
  t : ∀ p k, p ≤ intervals seg → k < n → 0 ≤ delay seg tsig tsamp p k → 0 ≤ G.t (delay seg tsig tsamp p k) ∧ G.t (delay seg tsig tsamp p k) < 2 ^ 62
  usable : ∀ p k, p ≤ intervals seg → k < n → 0 ≤ delay seg tsig tsamp p k → Usable kn g (G.x (lineR seg p)) (G.y (lineZ seg p)) (G.t (delay seg tsig tsamp p k))
  apart : ∀ p j k, p ≤ intervals seg → j < k → k < n → 0 ≤ delay seg tsig tsamp p j →
    Apart A g (G.x (lineR seg p)) (G.y (lineZ seg p)) (G.t (delay seg tsig tsamp p j)) (G.t (delay seg tsig tsamp p k))
  /-- with the mode `RaiseError` the segment is inside of the grid -/
  cov : oob = .raise → ∀ p k, p ≤ intervals seg → k < n → 0 ≤ delay seg tsig tsamp p k → g.Has (G.x (lineR seg p)) (G.y (lineZ seg p)) (G.t (delay seg tsig tsamp p k))
  /-- with the mode `Ignore` no sample is exactly at the end of the grid in time -/
  last : oob = .ignore → ∀ p k, p ≤ intervals seg → k < n → 0 ≤ delay seg tsig tsamp p k → G.t (delay seg tsig tsamp p k) ≠ g.nt + 1

open Classical in
/-- The Green's function object, in all its states that satisfy `I`, answers all requests according to the sampled field `A`: `accumulate_inner_product` gives the inner products of the
    source and the field interpolated from the samples, and `apply_accumulate` gives minus the trapezoidal sum over the causal integration points in the grid. In both cases the state again satisfies
    `I`, and other elements of the output are not changed. -/
structure Answers {σ : Type} (L : Library σ ℝ) (I : σ → Prop) (G : GMeta ℝ) (kn : Kern ℝ) (A : Nat → Int → Int → Int → ℝ) (g : Grid) : Prop where
  inner : ∀ (s : σ) (grow : ℝ → ℝ) (junk : Nat → ℝ) (r z t0 dt : ℝ) (n : Nat) (source : List ℝ) (weight : ℝ) (oob : OOB) (out : List ℝ) (P : Nat), I s → grow 0 = 0 →
    SamplesOk G kn A g r z t0 dt n → P + n ≤ out.length →
    ∃ s' out', accumulate L G kn grow junk r z t0 dt n source out P weight oob s = .ok (s', out') ∧ I s' ∧ out'.length = out.length ∧
      ∀ p, out'.getD p 0 = out.getD p 0 + if P ≤ p ∧ p < P + n then
        (greenAt G kn A 0 r z (t0 + ((p - P : Nat) : ℝ) * dt) * source.getD 0 0 + greenAt G kn A 1 r z (t0 + ((p - P : Nat) : ℝ) * dt) * source.getD 1 0) * weight else 0
  signal : ∀ (s : σ) (grow : ℝ → ℝ) (junk : Nat → Nat → Nat → ℝ) (wjunk : Nat → ℝ) (maxI maxS : Nat) (seg : Segment ℝ) (tsig tsamp : ℝ) (n : Nat) (out : List ℝ) (oob : OOB) (weight : ℝ), I s → grow 0 = 0 →
    0 < maxI ∧ maxI < 2 ^ 62 → 0 < maxS ∧ maxS < 2 ^ 62 → n ≤ out.length → SignalOk G kn A g seg tsig tsamp n oob →
    ∃ s' out', apply L G kn grow junk wjunk maxI maxS seg tsig tsamp n out oob weight s = .ok (s', out') ∧ I s' ∧ out'.length = out.length ∧
      ∀ k, out'.getD k 0 = out.getD k 0 + if k < n then
        -(weight * ((seg.t1 - seg.t0) / intervals seg) * ∑ p ∈ Finset.range (intervals seg + 1),
          if 0 ≤ delay seg tsig tsamp p k ∧ g.Has (G.x (lineR seg p)) (G.y (lineZ seg p)) (G.t (delay seg tsig tsamp p k)) then trapez (intervals seg) p * response G kn A seg tsig tsamp p k
          else 0) else 0

/-- The chunks `ms` are those of the grid. -/
structure Chunks (g : Grid) (ms : List Meta) : Prop where
  pts : 0 < g.pts
  cover : ∀ x y w : Nat, (∃ m ∈ ms, InBox m.start m.stop [x, y, w]) ↔ x ≤ g.nr ∧ y ≤ g.nz ∧ w ≤ g.nt
  box : ∀ m ∈ ms, BoxOK (List.replicate 3 0) [g.nr + 1, g.nz + 1, g.nt + 1] (List.replicate 3 g.pts) m.start m.stop
  uniq : ∀ m ∈ ms, ∀ m' ∈ ms, m.start = m'.start → m = m'
  specified : g.nulls = false → ∀ m ∈ ms, m.ctype = .specified
  overlap : ∀ m ∈ ms, m.overlap = g.overlap

/-! ### Proof -/

variable {g : Grid} {ms : List Meta}

theorem rep3 (v : Nat) {d : Nat} (hd : d < 3) : (List.replicate 3 v).getD d 0 = v := by
  match d, hd with
  | 0, _ => rfl
  | 1, _ => rfl
  | 2, _ => rfl

theorem Chunks.ends (h : Chunks g ms) : ∀ m ∈ ms, ∀ d < 3, m.start.getD d 0 < m.stop.getD d 0 ∧ m.stop.getD d 0 ≤ [g.nr + 1, g.nz + 1, g.nt + 1].getD d 0 ∧
    (m.stop.getD d 0 = [g.nr + 1, g.nz + 1, g.nt + 1].getD d 0 ∨ g.pts ∣ m.stop.getD d 0) := by
  intro m hm d hd
  obtain ⟨c2, c3, c4⟩ := h.box m hm
  simp only [List.length_replicate] at c4
  obtain ⟨q1, q2, q3, q4, ⟨k, q5⟩, q6⟩ := c4 d hd
  rw [rep3 g.pts hd, Meep.zeros_getD, Nat.zero_add] at q5
  rw [rep3 g.pts hd] at q6
  refine ⟨q2, q3, ?_⟩
  by_cases hle : [g.nr + 1, g.nz + 1, g.nt + 1].getD d 0 ≤ m.start.getD d 0 + g.pts
  · left; omega
  · right
    refine ⟨k + 1, ?_⟩
    rw [q6, Nat.min_eq_left (by omega), q5, Nat.mul_comm k, Nat.mul_add, Nat.mul_one]

/-- A chunk has exactly the grid points whose indices have the same quotient. -/
theorem Chunks.quot (h : Chunks g ms) {m : Meta} (hm : m ∈ ms) {d : Nat} (hd : d < 3) {a : Nat} (ha : m.start.getD d 0 ≤ a ∧ a < m.stop.getD d 0) :
    m.start.getD d 0 = a / g.pts * g.pts ∧ m.stop.getD d 0 = min (m.start.getD d 0 + g.pts) ([g.nr + 1, g.nz + 1, g.nt + 1].getD d 0) := by
  obtain ⟨c2, c3, c4⟩ := h.box m hm
  simp only [List.length_replicate] at c4
  obtain ⟨q1, q2, q3, q4, ⟨k, q5⟩, q6⟩ := c4 d hd
  rw [rep3 g.pts hd, Meep.zeros_getD, Nat.zero_add] at q5
  rw [rep3 g.pts hd] at q6
  refine ⟨?_, q6⟩
  rw [q5]
  congr 1
  have h1 : a < (k + 1) * g.pts := by rw [Nat.succ_mul]; omega
  exact (Nat.div_eq_of_lt_le (by omega) h1).symm

theorem Chunks.grid (h : Chunks g ms) {x y t : ℝ} (hx : 0 ≤ x) (hy : 0 ≤ y) (ht : 0 ≤ t) : (∃ m ∈ ms, InBox m.start m.stop (cell x y t)) ↔ g.Has x y t := by
  have f : ∀ {u : ℝ} {n : Nat}, 0 ≤ u → (⌊u⌋.toNat ≤ n ↔ u < (n : ℝ) + 1) := fun {u n} hu => by
    have h1 : ⌊u⌋ < ((n + 1 : Nat) : Int) ↔ u < (((n + 1 : Nat) : Int) : ℝ) := Int.floor_lt
    push_cast at h1
    rw [← h1]
    have := Int.floor_nonneg.2 hu
    omega
  unfold cell Grid.Has
  rw [h.cover, f hx, f hy, f ht]
  constructor
  · rintro ⟨a, b, c⟩; exact ⟨⟨hx, a⟩, ⟨hy, b⟩, ht, c⟩
  · rintro ⟨⟨_, a⟩, ⟨_, b⟩, _, c⟩; exact ⟨a, b, c⟩

theorem Chunks.at_end (h : Chunks g ms) {m : Meta} (hm : m ∈ ms) : ChunkEnd g.pts g.nr (m.stop.getD 0 0 : Int) ∧ ChunkEnd g.pts g.nz (m.stop.getD 1 0 : Int) ∧ ChunkEnd g.pts g.nt (m.stop.getD 2 0 : Int) := by
  have e : ∀ {a n : Nat}, (a = n + 1 ∨ g.pts ∣ a) → ChunkEnd g.pts n (a : Int) := fun {a n} h => by
    rcases h with h | h
    · left; omega
    · right; exact_mod_cast h
  exact ⟨e (h.ends m hm 0 (by decide)).2.2, e (h.ends m hm 1 (by decide)).2.2, e (h.ends m hm 2 (by decide)).2.2⟩

theorem Usable.edge {kn : Kern ℝ} (h : Chunks g ms) {x y t : ℝ} (hu : Usable kn g x y t) {m : Meta} (hm : m ∈ ms) (hs : m.overlap = kn.support) (ht : t = ((m.stop.getD 2 0 : Nat) : ℝ)) :
    ¬ (⌊x⌋ + 1 = (m.stop.getD 0 0 : Int) ∧ ⌊y⌋ + 1 = (m.stop.getD 1 0 : Int)) := by
  rintro ⟨e1, e2⟩
  obtain ⟨a1, a2, a3⟩ := h.at_end hm
  refine hu.1 (by rw [← hs, h.overlap m hm]) ⟨by rw [e1]; exact a1, by rw [e2]; exact a2, ((m.stop.getD 2 0 : Nat) : Int), ?_, a3⟩
  rw [ht]; simp

/-- After a sample in an "all zero" chunk the next samples are in the same chunk. -/
theorem Apart.null {σ : Type} {L : Library σ ℝ} {I : σ → Prop} {A : Nat → Int → Int → Int → ℝ} {Q : Int → Int → Int → Prop} (hc : Chunks g ms) (hL : Serves L I ms A Q)
    (hQ : ∀ i j k : Int, 0 ≤ i → Q i j k) {x y t t' : ℝ} (hx : 0 ≤ x) (hy : 0 ≤ y) (ht : 0 ≤ t) (ht' : 0 ≤ t') (h : Apart A g x y t t') {m m' : Meta} (hm : m ∈ ms) (hm' : m' ∈ ms)
    (hi : InBox m.start m.stop (cell x y t)) (hi' : InBox m'.start m'.stop (cell x y t')) (hz : m.ctype = .all_null) : m'.ctype = .all_null := by
  have hn : g.nulls = true := by
    by_contra hne
    rw [hc.specified (by simpa using hne) m hm] at hz; cases hz
  have q0 : ∀ {m : Meta} {t : ℝ}, m ∈ ms → 0 ≤ t → InBox m.start m.stop (cell x y t) → ((m.start.getD 0 0 = ⌊x⌋.toNat / g.pts * g.pts ∧ m.stop.getD 0 0 = min (m.start.getD 0 0 + g.pts) (g.nr + 1)) ∧
      (m.start.getD 1 0 = ⌊y⌋.toNat / g.pts * g.pts ∧ m.stop.getD 1 0 = min (m.start.getD 1 0 + g.pts) (g.nz + 1)) ∧
      m.start.getD 2 0 = ⌊t⌋.toNat / g.pts * g.pts ∧ m.stop.getD 2 0 = min (m.start.getD 2 0 + g.pts) (g.nt + 1)) ∧ m.start.length = 3 := fun {m t} hm ht hi => by
    have hl : m.start.length = 3 := by have := (hc.box m hm).1; simpa using this
    have hlc : 0 < (cell x y t).length ∧ 1 < (cell x y t).length ∧ 2 < (cell x y t).length := by simp [cell]
    refine ⟨⟨hc.quot hm (by decide) (hi.2.2 0 hlc.1), hc.quot hm (by decide) (hi.2.2 1 hlc.2.1), hc.quot hm (by decide) (hi.2.2 2 hlc.2.2)⟩, hl⟩
  have fx := Int.floor_nonneg.2 hx
  have fy := Int.floor_nonneg.2 hy
  have ft := Int.floor_nonneg.2 ht
  have ft' := Int.floor_nonneg.2 ht'
  obtain ⟨⟨⟨a1, a2⟩, ⟨b1, b2⟩, c1, c2⟩, hl⟩ := q0 hm ht hi
  obtain ⟨⟨⟨a1', a2'⟩, ⟨b1', b2'⟩, c1', c2'⟩, hl'⟩ := q0 hm' ht' hi'
  rcases h hn ((hc.grid hx hy ht).1 ⟨m, hm, hi⟩) ((hc.grid hx hy ht').1 ⟨m', hm', hi'⟩) with e | ⟨c, i, j, k, hcc, ⟨⟨i1, i2⟩, ⟨j1, j2⟩, k1, k2⟩, ⟨e1, e2, e3⟩, hne⟩
  · have e : ⌊t⌋.toNat / g.pts = ⌊t'⌋.toNat / g.pts := by
      have h1 : ((⌊t⌋.toNat / g.pts : Nat) : Int) = ((⌊t'⌋.toNat / g.pts : Nat) : Int) := by
        push_cast
        rw [Int.toNat_of_nonneg ft, Int.toNat_of_nonneg ft']; exact e
      exact_mod_cast h1
    have : m = m' := hc.uniq m hm m' hm' (by
      apply ext_getD (hl.trans hl'.symm)
      intro d hd
      rw [hl] at hd
      match d, hd with
      | 0, _ => rw [a1, a1']
      | 1, _ => rw [b1, b1']
      | 2, _ => rw [c1, c1', e])
    rw [← this]; exact hz
  · exfalso
    apply hne
    -- the point belongs to the chunk
    have inb : ∀ {i : Int} {u : ℝ} {s e n : Nat}, 0 ≤ i → i ≤ n → 0 ≤ ⌊u⌋ → i / g.pts = ⌊u⌋ / g.pts → s = ⌊u⌋.toNat / g.pts * g.pts → e = min (s + g.pts) (n + 1) → (s : Int) ≤ i ∧ i < e := by
      intro i u s e n h1 h2 h3 h4 h5 h6
      obtain ⟨i, rfl⟩ := Int.eq_ofNat_of_zero_le h1
      have h7 : i / g.pts = ⌊u⌋.toNat / g.pts := by
        have h8 : ((i / g.pts : Nat) : Int) = ((⌊u⌋.toNat / g.pts : Nat) : Int) := by
          push_cast
          rw [Int.toNat_of_nonneg h3]; exact h4
        exact_mod_cast h8
      rw [← h7] at h5
      have h9 := Nat.div_mul_le_self i g.pts
      have h10 := Nat.lt_div_mul_add hc.pts (a := i)
      have : s ≤ i ∧ i < e := by rw [h6, h5]; refine ⟨h9, lt_min h10 ?_⟩; omega
      omega
    have r0 := inb i1 i2 fx e1 a1 a2
    have r1 := inb j1 j2 fy e2 b1 b2
    have r2 := inb k1 k2 ft e3 c1 c2
    exact hL.null m hm hz c i j k hcc (by unfold InPadded; omega) (hQ i j k i1)

theorem answers {σ : Type} {L : Library σ ℝ} {I : σ → Prop} {A : Nat → Int → Int → Int → ℝ} {Q : Int → Int → Int → Prop} (hc : Chunks g ms) (hL : Serves L I ms A Q) {kn : Kern ℝ} (hk : IsKernel kn)
    (hsup : kn.support ≤ g.overlap) (hn : g.nr < 2 ^ 31 ∧ g.nz < 2 ^ 31 ∧ g.nt < 2 ^ 31) (G : GMeta ℝ) (hdt : 0 < G.dt) (hQ : ∀ i j k : Int, 0 ≤ i → Q i j k)
    (hst : ∀ x y t : ℝ, 0 ≤ x → 0 ≤ y → 0 ≤ t → Usable kn g x y t → StencilIn kn Q x y t) : Answers L I G kn A g := by
  have hu : kn.Usable := by
    cases hk with
    | linear => exact linear_usable
    | keys => exact keys_usable _
  have c62 : ∀ {u : ℝ} {n : Nat}, n < 2 ^ 31 → u < (n : ℝ) + 1 → u < 2 ^ 62 := fun {u n} hn hu => by
    have : ((n : Nat) : ℝ) + 1 ≤ 2 ^ 62 := by
      have : ((n + 1 : Nat) : ℝ) ≤ ((2 ^ 62 : Nat) : ℝ) := Nat.cast_le.2 (by omega)
      push_cast at this
      norm_num
      exact this
    linarith
  have hfits : ∀ {q : ℝ}, 0 < q → ((g.nt : ℝ) + 1) / q < 2 ^ 62 → ∀ m ∈ ms, ((m.stop.getD 2 0 : Nat) : ℝ) / q < 2 ^ 62 := fun {q} hq h m hm => by
    refine lt_of_le_of_lt (div_le_div_of_nonneg_right ?_ hq.le) h
    have : m.stop.getD 2 0 ≤ g.nt + 1 := (hc.ends m hm 2 (by decide)).2.1
    exact_mod_cast this
  constructor
  · intro s grow junk r z t0 dt n source weight oob out P hs hg h hout
    have hq : 0 < dt / G.dt := div_pos h.step hdt
    have hidx : ∀ k : Nat, G.t t0 + (k : ℝ) * (dt / G.dt) = G.t (t0 + k * dt) := by
      intro k; unfold GMeta.t; field_simp; ring
    obtain ⟨s', out', e, h1, h2, h3, h4, h5, h6, _⟩ := accumulate_ok hL hu hg G hdt junk r z t0 dt n source weight oob
      ⟨h.pos.1.1, h.pos.2.1, h.first, hq, c62 hn.1 h.pos.1.2, c62 hn.2.1 h.pos.2.2, fun k hk' => by
          rw [hidx]; exact c62 hn.2.2 (h.inside k hk').1.2.2.2, h.many, hfits hq h.fits, fun m hm => by rw [hc.overlap m hm]; exact hsup, fun m hm _ ho k hk' he => by
          rw [hidx] at he
          exact (h.inside k hk').2.edge hc hm ho he⟩
      (fun j k m m' hjk hk' hm hm' hi hi' hz => by
        rw [hidx] at hi hi'
        exact (h.apart j k hjk hk').null hc hL hQ h.pos.1.1 h.pos.2.1 (h.inside j (by omega)).1.2.2.1 (h.inside k hk').1.2.2.1 hm hm' hi hi' hz)
      (fun k hk' => hst _ _ _ h.pos.1.1 h.pos.2.1 (h.inside k hk').1.2.2.1 (h.inside k hk').2) out P hout
      (fun _ k hk' => (hc.grid h.pos.1.1 h.pos.2.1 (h.inside k hk').1.2.2.1).2 (h.inside k hk').1) s hs
    have he : e = n := by
      by_contra hne
      obtain ⟨m, hm, hin⟩ := (hc.grid h.pos.1.1 h.pos.2.1 (h.inside e (by omega)).1.2.2.1).2 (h.inside e (by omega)).1
      exact h5 (by omega) m hm hin
    subst he
    exact ⟨s', out', h1, h2, h3, h6⟩
  · intro s grow junk wjunk maxI maxS seg tsig tsamp n out oob weight hs hg hI hS hout h
    have hq : 0 < tsamp / G.dt := div_pos h.samp hdt
    have hdom : ∀ p k, p ≤ intervals seg → k < n → 0 ≤ delay seg tsig tsamp p k →
        (InDomain G ms seg tsig tsamp p k ↔ g.Has (G.x (lineR seg p)) (G.y (lineZ seg p)) (G.t (delay seg tsig tsamp p k))) := fun p k hp hk' hd =>
      hc.grid (h.x p hp).1 (h.y p hp).1 (h.t p k hp hk' hd).1
    have hmono : ∀ p j k, j < k → delay seg tsig tsamp p j ≤ delay seg tsig tsamp p k := fun p j k hjk => by
      unfold delay
      have : (j : ℝ) * tsamp ≤ k * tsamp := mul_le_mul_of_nonneg_right (Nat.cast_le.2 hjk.le) h.samp.le
      linarith
    have hok : LineOk G kn ms seg tsig tsamp n oob Q := by
      refine ⟨h.samp, hdt, h.num, h.many, h.int, hfits hq h.fits, h.x, h.y, h.t, fun m hm => by rw [hc.overlap m hm]; exact hsup, fun m hm _ ho p k hp hk' hd he => ?_, fun p j k m m' hp hjk hk' hd hm hm' hi hi' hz => ?_,
        fun ho p k hp hk' hd => (hdom p k hp hk' hd).2 (h.cov ho p k hp hk' hd), fun ho p j k hp hjk hk' hd hin => ?_, fun ho p k hp hk' hd hon => ?_,
        fun p k hp hk' hd => hst _ _ _ (h.x p hp).1 (h.y p hp).1 (h.t p k hp hk' hd).1 (h.usable p k hp hk' hd)⟩
      · exact (h.usable p k hp hk' hd).edge hc hm ho he
      · exact (h.apart p j k hp hjk hk' hd).null hc hL hQ (h.x p hp).1 (h.y p hp).1 (h.t p j hp (by omega) hd).1 (h.t p k hp hk' (le_trans hd (hmono p j k hjk))).1 hm hm' hi hi' hz
      · have hd' : 0 ≤ delay seg tsig tsamp p k := le_trans hd (hmono p j k hjk)
        obtain ⟨a, b, c⟩ := (hdom p k hp hk' hd').1 hin
        refine (hdom p j hp (by omega) hd).2 ⟨a, b, (h.t p j hp (by omega) hd).1, lt_of_le_of_lt ?_ c.2⟩
        unfold GMeta.t
        exact div_le_div_of_nonneg_right (by linarith [hmono p j k hjk]) hdt.le
      · rcases hon with hin | ⟨m, hm, ht, hx, hy⟩
        · exact hin
        · have hlt : m.stop.getD 2 0 ≤ g.nt + 1 := (hc.ends m hm 2 (by decide)).2.1
          have hx1 : m.stop.getD 0 0 ≤ g.nr + 1 := (hc.ends m hm 0 (by decide)).2.1
          have hy1 : m.stop.getD 1 0 ≤ g.nz + 1 := (hc.ends m hm 1 (by decide)).2.1
          have hne : m.stop.getD 2 0 ≠ g.nt + 1 := fun e => by
            apply h.last ho p k hp hk' hd
            rw [ht, e]; push_cast; rfl
          have up : ∀ {u : ℝ} {a b : Nat}, ⌊u⌋ < (a : Int) → a ≤ b + 1 → u < (b : ℝ) + 1 := fun {u a b} h1 h2 => by
            have : ⌊u⌋ < ((b + 1 : Nat) : Int) := by omega
            have := Int.floor_lt.1 this
            push_cast at this
            exact this
          refine (hdom p k hp hk' hd).2 ⟨⟨(h.x p hp).1, up hx.2 hx1⟩, ⟨(h.y p hp).1, up hy.2 hy1⟩, (h.t p k hp hk' hd).1, ?_⟩
          rw [ht]
          have : m.stop.getD 2 0 < g.nt + 1 := by omega
          exact_mod_cast this
    obtain ⟨s', out', h1, h2, h3, h4⟩ := apply_ok hL hu hg G junk wjunk maxI maxS hI hS seg h.order tsig tsamp n out hout oob weight hok s hs
    refine ⟨s', out', h1, h2, h3, fun k => ?_⟩
    rw [h4 k]
    congr 1
    by_cases hkn : k < n
    · rw [if_pos hkn, if_pos hkn]
      congr 2
      apply Finset.sum_congr rfl
      intro p hp
      have hp : p ≤ intervals seg := by have := Finset.mem_range.1 hp; omega
      by_cases hd : 0 ≤ delay seg tsig tsamp p k
      · have := hdom p k hp hkn hd
        by_cases hg' : InDomain G ms seg tsig tsamp p k
        · rw [if_pos ⟨hd, hg'⟩, if_pos ⟨hd, this.1 hg'⟩]
        · rw [if_neg fun c => hg' c.2, if_neg fun c => hg' (this.2 c.2)]
      · rw [if_neg fun c => hd c.1, if_neg fun c => hd c.1]
    · rw [if_neg hkn, if_neg hkn]

end Verif.Green
