import Verif.Green.Props79
import Verif.Green.Props38
/-
C80: rounding of the positions in `CylindricalGreensFunction::accumulate_inner_product` (GreensFunction.hxx 364-433) and reads outside of a chunk.

The arithmetic is that of `Verif.Green.Rounding`. Not modelled here: the rounding in the conversion from coordinates to `rz_f_ind`, `t_start_f_ind`, `t_samp_f_ind`; these are the (arbitrary)
numbers `x`, `y`, `t`, `dt`.
-/
namespace Verif.Green
open Verif Verif.ND Verif.Dist

set_option linter.unusedSectionVars false

/-! ### The program -/

/-- GreensFunction.hxx 40-54 `to_chunk_local_ind`, one component: the index is converted to `scalar_t`, then the fractional part is added. -/
noncomputable def toLocalF (A : Arith) (g : ℝ) (off : Nat) : Res ℝ :=
  (toSize (modf g).1).bind fun i => .ok (A.add (A.ofNat (wsub i off)) (modf g).2)

/-- GreensFunction.hxx 390-400: the number of samples to take from a chunk that ends at `stop`, and the assertion on the last of them. `t` is `cur_f_ind.t()`, `left` is
    `num_samples - cur_sample_ind`. -/
noncomputable def requestF (A : Arith) (stop : Nat) (t dt : ℝ) (left : Nat) : Res Nat :=
  (toSize (modf (A.div (A.sub (A.ofNat stop) t) dt)).1).bind fun c =>
  let req := min (wadd c 1) left
  (Res.assert (decide (A.mulAdd (A.ofNat (wsub req 1)) dt t ≤ A.ofNat stop))).bind fun _ => .ok req

/-- GreensFunction.hxx 414-422: the interpolation in the chunk `m` with data `buf`. -/
noncomputable def chunkInterpF (A : Arith) (kn : Kern ℝ) (m : Meta) (buf : List ℝ) (x y t dt : ℝ) (n : Nat) : Res (List ℝ) :=
  (toLocalF A x (m.offset.getD 0 0)).bind fun lx =>
  (toLocalF A y (m.offset.getD 1 0)).bind fun ly =>
  (toLocalF A t (m.offset.getD 2 0)).bind fun lt =>
  (interpolateF A kn 2 (mkHdr 2 (m.shape.map (· + 2 * m.overlap))) buf (mkHdr 2 [n]) (List.replicate (n * 2) 0) lx ly lt dt n (fun _ => 0)).bind fun r => .ok r.2

/-- GreensFunction.hxx 461-463 `inner_product`. -/
noncomputable def innerProductF (A : Arith) (field source : List ℝ) : ℝ := A.mulAdd (field.getD 1 0) (source.getD 1 0) (A.mul (field.getD 0 0) (source.getD 0 0))

/-- GreensFunction.hxx 425-432, see `addProducts`. -/
noncomputable def addProductsF (A : Arith) (hr : Hdr) (buf : List ℝ) (source : List ℝ) (weight : ℝ) (i : Nat) (st : List ℝ × Nat) : Res (List ℝ × Nat) :=
  (read1 2 hr buf i).bind fun v =>
  if st.2 < st.1.length then .ok (st.1.set st.2 (A.mulAdd (innerProductF A v source) weight (st.1.getD st.2 0)), st.2 + 1) else .ub

/-- GreensFunction.hxx 408-433, see `chunkPart`. -/
noncomputable def chunkPartF {σ : Type} (A : Arith) (L : Library σ ℝ) (kn : Kern ℝ) (grow : ℝ → ℝ) (m : Meta) (x y t dt : ℝ) (req : Nat) (source : List ℝ) (weight : ℝ)
    (a : Acc σ ℝ) : Res (Acc σ ℝ) :=
  match m.ctype with
  | .all_null => .ok a
  | .specified =>
    (L.load a.lib m).bind fun q =>
    (toLocalF A x (m.offset.getD 0 0)).bind fun lx =>
    (toLocalF A y (m.offset.getD 1 0)).bind fun ly =>
    (toLocalF A t (m.offset.getD 2 0)).bind fun lt =>
    let ret := List.replicate a.size (0 : ℝ)
    (interpolateF A kn 2 (mkHdr 2 q.2.1) q.2.2 (mkHdr 2 [a.size / 2]) ret lx ly lt dt req (fun k => grow (a.mem.getD k 0))).bind fun r =>
    (runLoop (addProductsF A r.1 r.2 source weight) (List.range req) (a.out, a.pos)).bind fun o =>
    .ok { a with lib := q.1, mem := r.2 ++ (ret ++ a.mem.drop a.size).drop r.2.length, size := r.2.length, out := o.1, pos := o.2 }

/-- GreensFunction.hxx 364-436, the loop, see `accLoop`. -/
noncomputable def accLoopF {σ : Type} (A : Arith) (L : Library σ ℝ) (kn : Kern ℝ) (grow : ℝ → ℝ) (oob : OOB) (x y ts dt : ℝ) (n : Nat) (source : List ℝ) (weight : ℝ) :
    Nat → Acc σ ℝ → Res (Acc σ ℝ)
  | 0, _ => .diverge
  | fuel + 1, a =>
    if a.cur < n then
      let t := sampleInd A ts dt a.cur
      (toSize (modf x).1).bind fun i0 =>
      (toSize (modf y).1).bind fun i1 =>
      (toSize (modf t).1).bind fun i2 =>
      (L.find a.lib [i0, i1, i2]).bind fun f =>
      match f.2 with
      | none => if oob = .ignore then .ok { a with lib := f.1 } else .ub
      | some m =>
        (Res.assert (decide (kn.support ≤ m.overlap))).bind fun _ =>
        (requestF A (m.stop.getD 2 0) t dt (n - a.cur)).bind fun req =>
        (chunkPartF A L kn grow m x y t dt req source weight { a with lib := f.1 }).bind fun b =>
        accLoopF A L kn grow oob x y ts dt n source weight fuel { b with cur := b.cur + req }
    else .ok a

/-- GreensFunction.hxx 344-437 `accumulate_inner_product`, from the floating-point indices on, see `accumulate`. -/
noncomputable def accumulateF {σ : Type} (A : Arith) (L : Library σ ℝ) (kn : Kern ℝ) (grow : ℝ → ℝ) (junk : Nat → ℝ) (x y ts dt : ℝ) (n : Nat) (source : List ℝ)
    (out : List ℝ) (pos : Nat) (weight : ℝ) (oob : OOB) (s : σ) : Res (σ × List ℝ) :=
  (accLoopF A L kn grow oob x y ts dt n source weight (n + 1) ⟨s, (List.range (n * 2)).map junk, n * 2, out, pos, 0⟩).bind fun a => .ok (a.lib, a.out)

/-! ### Specification -/

/-- Natural numbers up to `B` are represented exactly. -/
def Arith.Counts (A : Arith) (B : Nat) : Prop := ∀ n ≤ B, A.ofNat n = n

/-- Rounding five times a coordinate of the chunk, relative to the start of its array, moves it by less than one grid step. -/
def Meta.Small (m : Meta) (u : ℝ) : Prop := ∀ d < 3, ((m.shape.getD d 0 + m.overlap : Nat) : ℝ) * ((1 + u) ^ 5 - 1) < 1

/-! ### Proofs -/

variable {A : Arith} {u : ℝ}

theorem nonneg_round {x r : ℝ} (hu : u ≤ 1) (h : |r - x| ≤ u * |x|) (hx : 0 ≤ x) : 0 ≤ r ∧ r ≤ (1 + u) * x ∧ (1 - u) * x ≤ r := by
  rw [abs_of_nonneg hx, abs_le] at h
  exact ⟨by nlinarith [h.1], by linarith [h.2], by linarith [h.1]⟩

/-- The local coordinate: at most one rounding off. -/
theorem toLocalF_ok (hA : A.Rounds u) {B : Nat} (hB : A.Counts B) {g : ℝ} {start ov stop : Nat} (hs : stop < 2 ^ 62) (ho : ov < 2 ^ 61) (h1 : (start : Int) ≤ ⌊g⌋)
    (h2 : ⌊g⌋ < (stop : Int)) (hb : stop - start + ov ≤ B) :
    ∃ l, toLocalF A g (wsub start ov) = .ok l ∧ Near u 1 l (g - start + ov) |g - start + ov| := by
  have hU : U64 = 2 ^ 64 := rfl
  have hg : 0 ≤ g := Int.floor_nonneg.1 (by omega)
  unfold toLocalF
  rw [modf_nonneg hg]
  simp only
  rw [toSize_ok (by omega) (by omega)]
  simp only [Res.ok_bind]
  rw [wsub_wsub (by omega) (by omega) ho (by omega), hB _ (by omega)]
  refine ⟨_, rfl, ?_⟩
  have e : ((⌊g⌋.toNat - start + ov : Nat) : ℝ) + Int.fract g = g - start + ov := by
    have e1 : ((⌊g⌋.toNat - start + ov : Nat) : ℝ) = ((⌊g⌋ - ((start : Int) - (ov : Int)) : Int) : ℝ) := by
      rw [← Int.cast_natCast]; congr 1; omega
    rw [e1]
    have := Int.floor_add_fract g
    push_cast
    linarith
  have := hA.add (((⌊g⌋.toNat - start + ov : Nat) : ℝ)) (Int.fract g)
  rw [e] at this
  exact round_exact hA.nonneg this

/-- A number close enough to a point of the chunk has all neighbours the kernel needs, if the padding is larger than the support. -/
theorem inside_near (hu : 0 ≤ u) {p q : ℝ} {ext ov s : Nat} (hp : Near u 3 p q |q|) (hs : s < ov) (h1 : (ov : ℝ) ≤ q) (h2 : q ≤ (ext + ov) * (1 + u) ^ 2)
    (hsm : ((ext + ov : Nat) : ℝ) * ((1 + u) ^ 5 - 1) < 1) : Inside s (ext + 2 * ov) p := by
  have q0 : 0 ≤ q := le_trans (Nat.cast_nonneg _) h1
  have hp1 := hp.1
  rw [abs_of_nonneg q0, abs_le] at hp1
  have m1 := one_le_pow hu 3
  have m2 : (1 + u) ^ 3 ≤ (1 + u) ^ 5 := pow_le_pow_right₀ (by linarith) (by norm_num)
  have e0 : (0 : ℝ) ≤ ext := Nat.cast_nonneg _
  have o0 : (0 : ℝ) ≤ ov := Nat.cast_nonneg _
  push_cast at hsm
  have up : p < (ext + ov + 1 : Nat) := by
    push_cast
    have a : p ≤ (1 + u) ^ 3 * q := by nlinarith [hp1.2]
    have b : (1 + u) ^ 3 * q ≤ (1 + u) ^ 3 * ((ext + ov) * (1 + u) ^ 2) := mul_le_mul_of_nonneg_left h2 (by linarith)
    have c : (1 + u) ^ 3 * ((ext + ov) * (1 + u) ^ 2) = (ext + ov : ℝ) * (1 + u) ^ 5 := by ring
    nlinarith
  have lo : ((ov : ℝ) - 1) ≤ p := by
    by_cases hc : ((1 + u) ^ 3 - 1) ≤ 1
    · have a : (2 - (1 + u) ^ 3) * q ≤ p := by nlinarith [hp1.1]
      have b : (2 - (1 + u) ^ 3) * ov ≤ (2 - (1 + u) ^ 3) * q := mul_le_mul_of_nonneg_left h1 (by linarith)
      have c : (ov : ℝ) * ((1 + u) ^ 3 - 1) ≤ (ext + ov) * ((1 + u) ^ 5 - 1) := mul_le_mul (by linarith) (by linarith) (by linarith) (by linarith)
      nlinarith
    · exfalso
      have o1 : (1 : ℝ) ≤ ov := by exact_mod_cast (by omega : 1 ≤ ov)
      nlinarith
  constructor
  · have : (ov : Int) - 1 ≤ ⌊p⌋ := Int.le_floor.2 (by push_cast; exact lo)
    omega
  · have : ⌊p⌋ < ((ext + ov + 1 : Nat) : Int) := Int.floor_lt.2 (by exact_mod_cast up)
    push_cast at this ⊢
    omega

/-- The number of samples: the assertion stops the program, or there is at least one, and the last lies before the end of the chunk up to two roundings. -/
theorem requestF_ok (hA : A.Rounds u) (hu1 : u ≤ 1) {B : Nat} (hB : A.Counts B) {stop : Nat} (hs : stop ≤ B) {t dt : ℝ} (ht : t ≤ stop) (hdt : 0 < dt) {left : Nat} (hl : 0 < left)
    (hl64 : left < U64) (hmax : (1 + u) ^ 2 * (stop - t) < 2 ^ 63 * dt) :
    requestF A stop t dt left = .abort ∨ ∃ req, requestF A stop t dt left = .ok req ∧ 0 < req ∧ req ≤ left ∧
      ((req - 1 : Nat) : ℝ) * dt ≤ (stop - t) * (1 + u) ^ 2 := by
  have hU : U64 = 2 ^ 64 := rfl
  have hu := hA.nonneg
  have a0 : 0 ≤ (stop : ℝ) - t := by linarith
  obtain ⟨s1, s2, _⟩ := nonneg_round hu1 (hA.sub (stop : ℝ) t) a0
  obtain ⟨d1, d2, _⟩ := nonneg_round hu1 (hA.div (A.sub (stop : ℝ) t) dt) (div_nonneg s1 hdt.le)
  set q := A.div (A.sub (stop : ℝ) t) dt with hq
  have q2 : q * dt ≤ (stop - t) * (1 + u) ^ 2 := by
    have : q * dt ≤ (1 + u) * (A.sub (stop : ℝ) t / dt) * dt := mul_le_mul_of_nonneg_right d2 hdt.le
    rw [mul_assoc, div_mul_cancel₀ _ hdt.ne'] at this
    nlinarith
  have q3 : q < 2 ^ 63 := by
    by_contra h
    have := mul_le_mul_of_nonneg_right (not_lt.1 h) hdt.le
    nlinarith
  have f0 : 0 ≤ ⌊q⌋ := Int.floor_nonneg.2 d1
  have f1 : ⌊q⌋ < 2 ^ 63 := Int.floor_lt.2 (by norm_num at q3 ⊢; exact q3)
  unfold requestF
  rw [hB _ hs, ← hq, modf_nonneg d1]
  simp only
  rw [toSize_ok f0 (by omega)]
  simp only [Res.ok_bind]
  rw [wadd_eq (by omega)]
  set req := min (⌊q⌋.toNat + 1) left with hreq
  have r0 : 0 < req := by omega
  rw [wsub_eq (by omega) (by omega)]
  by_cases hc : A.mulAdd (A.ofNat (req - 1)) dt t ≤ stop
  · right
    refine ⟨req, by simp [hc], r0, by omega, ?_⟩
    have h1 : (((req - 1 : Nat) : Int) : ℝ) ≤ q := by
      apply Int.le_floor.1
      omega
    have := mul_le_mul_of_nonneg_right h1 hdt.le
    push_cast at this
    linarith
  · left
    simp [hc, Res.assert]
    rfl

/-- The positions in the array of a chunk. -/
theorem chunk_positions (hA : A.Rounds u) (hu1 : u ≤ 1) {B : Nat} (hB : A.Counts B) {support : Nat} {m : Meta}
    (hM : MetaOk m) (hov : support < m.overlap) (hsm : Meta.Small m u) (hsize : ∀ d < 3, m.stop.getD d 0 + m.overlap ≤ B) {x y t dt : ℝ}
    (hx : ((m.start.getD 0 0 : Nat) : ℝ) ≤ x ∧ x < ((m.stop.getD 0 0 : Nat) : ℝ)) (hy : ((m.start.getD 1 0 : Nat) : ℝ) ≤ y ∧ y < ((m.stop.getD 1 0 : Nat) : ℝ))
    (ht : ((m.start.getD 2 0 : Nat) : ℝ) ≤ t ∧ t < ((m.stop.getD 2 0 : Nat) : ℝ)) (hdt : 0 < dt) {left : Nat} (hl : 0 < left) (hl64 : left < U64)
    (hmax : (1 + u) ^ 2 * ((m.stop.getD 2 0 : Nat) - t) < 2 ^ 63 * dt) :
    requestF A (m.stop.getD 2 0) t dt left = .abort ∨
    ∃ req, requestF A (m.stop.getD 2 0) t dt left = .ok req ∧ 0 < req ∧ req ≤ left ∧ ∃ lx ly lt,
      toLocalF A x (m.offset.getD 0 0) = .ok lx ∧ toLocalF A y (m.offset.getD 1 0) = .ok ly ∧ toLocalF A t (m.offset.getD 2 0) = .ok lt ∧
      |lx - (x - m.start.getD 0 0 + m.overlap)| ≤ u * (x - m.start.getD 0 0 + m.overlap) ∧ |ly - (y - m.start.getD 1 0 + m.overlap)| ≤ u * (y - m.start.getD 1 0 + m.overlap) ∧
      Inside support (m.shape.getD 0 0 + 2 * m.overlap) lx ∧ Inside support (m.shape.getD 1 0 + 2 * m.overlap) ly ∧
      ∀ k : Nat, k < req →
        |sampleInd A lt dt k - (t + k * dt - m.start.getD 2 0 + m.overlap)| ≤ ((1 + u) ^ 3 - 1) * (t + k * dt - m.start.getD 2 0 + m.overlap) ∧
        Inside support (m.shape.getD 2 0 + 2 * m.overlap) (sampleInd A lt dt k) ∧
        t + k * dt - m.start.getD 2 0 + m.overlap ≤ ((m.shape.getD 2 0 + m.overlap : Nat) : ℝ) * (1 + u) ^ 2 := by
  have hu := hA.nonneg
  have hU : U64 = 2 ^ 64 := rfl
  have st0 := hM.getD_stop 0
  have st1 := hM.getD_stop 1
  have st2 := hM.getD_stop 2
  have lt0 := hM.lt 0 (by decide)
  have lt1 := hM.lt 1 (by decide)
  have lt2 := hM.lt 2 (by decide)
  have hovl := hM.ovl
  rcases requestF_ok hA hu1 hB (stop := m.stop.getD 2 0) (by have := hsize 2 (by decide); omega) ht.2.le hdt hl hl64 hmax with h | ⟨req, hreq, r0, rl, hlastpos⟩
  · exact Or.inl h
  right
  have fl : ∀ {a : Nat} {w : ℝ}, ((a : Nat) : ℝ) ≤ w → (a : Int) ≤ ⌊w⌋ := fun {a w} h => Int.le_floor.2 (by simpa using h)
  have fl' : ∀ {a : Nat} {w : ℝ}, w < ((a : Nat) : ℝ) → ⌊w⌋ < (a : Int) := fun {a w} h => Int.floor_lt.2 (by simpa using h)
  obtain ⟨lx, ex, nx⟩ := toLocalF_ok hA hB (start := m.start.getD 0 0) (ov := m.overlap) lt0 hovl (fl hx.1) (fl' hx.2) (by have := hsize 0 (by decide); omega)
  obtain ⟨ly, ey, ny⟩ := toLocalF_ok hA hB (start := m.start.getD 1 0) (ov := m.overlap) lt1 hovl (fl hy.1) (fl' hy.2) (by have := hsize 1 (by decide); omega)
  obtain ⟨lt, et, nt⟩ := toLocalF_ok hA hB (start := m.start.getD 2 0) (ov := m.overlap) lt2 hovl (fl ht.1) (fl' ht.2) (by have := hsize 2 (by decide); omega)
  have o0 : (0 : ℝ) ≤ m.overlap := Nat.cast_nonneg _
  have p2 := one_le_pow hu 2
  have c0 : ((m.stop.getD 0 0 : Nat) : ℝ) = (m.start.getD 0 0 : Nat) + (m.shape.getD 0 0 : Nat) := by rw [st0]; push_cast; ring
  have c1 : ((m.stop.getD 1 0 : Nat) : ℝ) = (m.start.getD 1 0 : Nat) + (m.shape.getD 1 0 : Nat) := by rw [st1]; push_cast; ring
  have c2 : ((m.stop.getD 2 0 : Nat) : ℝ) = (m.start.getD 2 0 : Nat) + (m.shape.getD 2 0 : Nat) := by rw [st2]; push_cast; ring
  have grow : ∀ {E q : ℝ}, 0 ≤ E → q ≤ E → q ≤ E * (1 + u) ^ 2 := fun {E q} hE h => h.trans (by nlinarith)
  have ix : Inside support (m.shape.getD 0 0 + 2 * m.overlap) lx :=
    inside_near hu (nx.mono hu (by norm_num) le_rfl) hov (by linarith [hx.1]) (grow (by positivity) (by linarith [hx.2])) (hsm 0 (by decide))
  have iy : Inside support (m.shape.getD 1 0 + 2 * m.overlap) ly :=
    inside_near hu (ny.mono hu (by norm_num) le_rfl) hov (by linarith [hy.1]) (grow (by positivity) (by linarith [hy.2])) (hsm 1 (by decide))
  have np : ∀ k : Nat, k < req → Near u 3 (sampleInd A lt dt k) (t + k * dt - m.start.getD 2 0 + m.overlap) |t + k * dt - m.start.getD 2 0 + m.overlap| := by
    intro k hk'
    have h1 : Near u 1 (A.ofNat k) k |(k : ℝ)| := round_exact hu (by
      have := hA.ofNat k
      rwa [abs_of_nonneg (Nat.cast_nonneg k : (0 : ℝ) ≤ k)])
    have h2 := h1.mulAdd hA (Near.refl hu 0 dt) (nt.mono hu (by norm_num : 1 ≤ 2) le_rfl) (by norm_num)
    have z1 : 0 ≤ t - m.start.getD 2 0 + m.overlap := by linarith [ht.1]
    have z2 : (0 : ℝ) ≤ k * dt := by positivity
    rw [← abs_mul, abs_of_nonneg z1, abs_of_nonneg z2] at h2
    rw [abs_of_nonneg (by linarith)]
    have e : t - (m.start.getD 2 0 : Nat) + m.overlap + k * dt = t + k * dt - (m.start.getD 2 0 : Nat) + m.overlap := by ring
    rw [e] at h2
    exact h2
  have it : ∀ k : Nat, k < req → t + k * dt - m.start.getD 2 0 + m.overlap ≤ (((m.shape.getD 2 0 : Nat) : ℝ) + m.overlap) * (1 + u) ^ 2 := by
    intro k hk'
    have b1 : (k : ℝ) ≤ ((req - 1 : Nat) : ℝ) := by exact_mod_cast (by omega : k ≤ req - 1)
    have b2 : (k : ℝ) * dt ≤ ((m.stop.getD 2 0 : Nat) - t) * (1 + u) ^ 2 := (mul_le_mul_of_nonneg_right b1 hdt.le).trans hlastpos
    have b3 : t - (m.start.getD 2 0 : Nat) + m.overlap ≤ (t - (m.start.getD 2 0 : Nat) + m.overlap) * (1 + u) ^ 2 := by nlinarith [ht.1]
    have b4 : (t - (m.start.getD 2 0 : Nat) + m.overlap) * (1 + u) ^ 2 + ((m.stop.getD 2 0 : Nat) - t) * (1 + u) ^ 2 =
        (((m.shape.getD 2 0 : Nat) : ℝ) + m.overlap) * (1 + u) ^ 2 := by rw [c2]; ring
    linarith
  have ip : ∀ k : Nat, k < req → Inside support (m.shape.getD 2 0 + 2 * m.overlap) (sampleInd A lt dt k) := by
    intro k hk'
    have z2 : (0 : ℝ) ≤ k * dt := by positivity
    exact inside_near hu (np k hk') hov (by linarith [ht.1]) (it k hk') (hsm 2 (by decide))
  refine ⟨req, hreq, r0, rl, lx, ly, lt, ?_, ?_, ?_, ?_, ?_, ix, iy, fun k hk' => ⟨?_, ip k hk', by push_cast; exact it k hk'⟩⟩
  · rw [hM.getD_offset (by decide), ex]
  · rw [hM.getD_offset (by decide), ey]
  · rw [hM.getD_offset (by decide), et]
  · have := nx.1
    rw [abs_of_nonneg (by linarith [hx.1] : 0 ≤ x - (m.start.getD 0 0 : Nat) + m.overlap)] at this
    simpa using this
  · have := ny.1
    rw [abs_of_nonneg (by linarith [hy.1] : 0 ≤ y - (m.start.getD 1 0 : Nat) + m.overlap)] at this
    simpa using this
  · have := (np k hk').1
    have z2 : (0 : ℝ) ≤ k * dt := by positivity
    rwa [abs_of_nonneg (by linarith [ht.1] : 0 ≤ t + k * dt - (m.start.getD 2 0 : Nat) + m.overlap)] at this

/-! ### The property -/

/-- C80. Let a chunk be padded by more than the kernel's support, let the cell of the current sample be in the chunk, and let the chunk be small compared to the precision
    (`Meta.Small`, `Arith.Counts`). Then, whatever the roundings, either the assertion on the last sample stops the program, or at least one of the remaining samples is
    taken from the chunk, the interpolation reads elements of the chunk's array only, and its results are the interpolated values at positions that are at most three roundings away from
    the positions of the samples, up to the error of C79.
    (Partial: with the assertion enabled the program can stop for legitimate requests, `C80_assertion_fails`; with padding equal to the support it can read outside, `C80_over_read`.) -/
theorem C80_reads_in_bounds_partial (hA : A.Rounds u) (hu1 : u ≤ 1) {B : Nat} (hB : A.Counts B) {kf kn : Kern ℝ} {kk : Nat} (hk : KernClose u kf kn kk)
    (hlast : kn.weight 0 (2 * kn.support - 1) = 0) {m : Meta}
    (hM : MetaOk m) (hov : kn.support < m.overlap) (hsm : Meta.Small m u) (hsize : ∀ d < 3, m.stop.getD d 0 + m.overlap ≤ B) {buf : List ℝ}
    (hbuf : buf.length = volume 2 (m.shape.map (· + 2 * m.overlap))) {x y t dt : ℝ}
    (hx : ((m.start.getD 0 0 : Nat) : ℝ) ≤ x ∧ x < ((m.stop.getD 0 0 : Nat) : ℝ)) (hy : ((m.start.getD 1 0 : Nat) : ℝ) ≤ y ∧ y < ((m.stop.getD 1 0 : Nat) : ℝ))
    (ht : ((m.start.getD 2 0 : Nat) : ℝ) ≤ t ∧ t < ((m.stop.getD 2 0 : Nat) : ℝ)) (hdt : 0 < dt) {left : Nat} (hl : 0 < left) (hl64 : left < U64)
    (hmax : (1 + u) ^ 2 * ((m.stop.getD 2 0 : Nat) - t) < 2 ^ 63 * dt) :
    requestF A (m.stop.getD 2 0) t dt left = .abort ∨
    ∃ req, requestF A (m.stop.getD 2 0) t dt left = .ok req ∧ 0 < req ∧ req ≤ left ∧
    ∃ d lx ly : _, ∃ p : Nat → ℝ, chunkInterpF A kf m buf x y t dt req = .ok d ∧ d.length = req * 2 ∧
      |lx - (x - m.start.getD 0 0 + m.overlap)| ≤ u * (x - m.start.getD 0 0 + m.overlap) ∧ |ly - (y - m.start.getD 1 0 + m.overlap)| ≤ u * (y - m.start.getD 1 0 + m.overlap) ∧
      ∀ k : Nat, k < req →
        |p k - (t + k * dt - m.start.getD 2 0 + m.overlap)| ≤ ((1 + u) ^ 3 - 1) * (t + k * dt - m.start.getD 2 0 + m.overlap) ∧
        Inside kn.support (m.shape.getD 0 0 + 2 * m.overlap) lx ∧ Inside kn.support (m.shape.getD 1 0 + 2 * m.overlap) ly ∧
        Inside kn.support (m.shape.getD 2 0 + 2 * m.overlap) (p k) ∧
        ∀ c < 2, |d.getD (2 * k + c) 0 - interpAt kn (component 2 (mkHdr 2 (m.shape.map (· + 2 * m.overlap))) buf c) lx ly (p k)| ≤
          ((1 + u) ^ roundings kn.support kk - 1) * interpMag kn (component 2 (mkHdr 2 (m.shape.map (· + 2 * m.overlap))) buf c) lx ly (p k) := by
  have hU : U64 = 2 ^ 64 := rfl
  have st0 := hM.getD_stop 0
  have st1 := hM.getD_stop 1
  have st2 := hM.getD_stop 2
  have lt0 := hM.lt 0 (by decide)
  have lt1 := hM.lt 1 (by decide)
  have lt2 := hM.lt 2 (by decide)
  have hovl := hM.ovl
  rcases chunk_positions hA hu1 hB hM hov hsm hsize hx hy ht hdt hl hl64 hmax with h | ⟨req, hreq, r0, rl, lx, ly, lt, ex, ey, et, bx, b_y, ix, iy, ip⟩
  · exact Or.inl h
  right
  have sh : m.shape.map (· + 2 * m.overlap) = [m.shape.getD 0 0 + 2 * m.overlap, m.shape.getD 1 0 + 2 * m.overlap, m.shape.getD 2 0 + 2 * m.overlap] := hM.shape3
  obtain ⟨d, e1, e2, e3⟩ := interpolateF_ok hA hk hlast (vd := 2) (by decide) (by rw [← sh]; exact hbuf) (by omega) (by omega) (by omega) (hr := mkHdr 2 [req]) rfl
    (List.replicate (req * 2) 0) lx ly lt dt req (fun _ => 0) ix iy (fun k hk' => Or.inl (ip k hk').2.1)
  refine ⟨req, hreq, r0, rl, d, lx, ly, sampleInd A lt dt, ?_, e2, bx, b_y, fun k hk' => ⟨(ip k hk').1, ix, iy, (ip k hk').2.1, fun c hc => ?_⟩⟩
  · unfold chunkInterpF
    rw [ex, ey, et, sh]
    simp only [Res.ok_bind]
    rw [e1]
    rfl
  · rw [sh]
    refine e3 k c hk' hc ?_
    have hlt : 2 * k + c < req * 2 := by omega
    rw [List.getD_eq_getElem?_getD, List.getElem?_replicate, if_pos hlt]; rfl


theorem addProductsF_ok (A : Arith) (buf : List ℝ) (source : List ℝ) (weight : ℝ) (req : Nat) (hb : buf.length = req * 2) :
    ∀ (l : List Nat), (∀ i ∈ l, i < req) → ∀ (out : List ℝ) (pos : Nat), pos + l.length ≤ out.length →
    ∃ out', runLoop (addProductsF A (mkHdr 2 [req]) buf source weight) l (out, pos) = .ok (out', pos + l.length) ∧ out'.length = out.length := by
  intro l
  induction l with
  | nil => intro _ out pos _; exact ⟨out, rfl, rfl⟩
  | cons i l ih =>
    intro hl out pos h
    simp only [List.length_cons] at h
    have hi : i < req := hl i (by simp)
    have hr : ∃ v, read1 2 (mkHdr 2 [req]) buf i = .ok v := by
      unfold read1
      rw [if_pos (by simp [hasIndex, mkHdr, hi]), if_pos (by omega)]
      exact ⟨_, rfl⟩
    obtain ⟨v, hv⟩ := hr
    obtain ⟨out', e1, e2⟩ := ih (fun i hi => hl i (by simp [hi])) (out.set pos (A.mulAdd (innerProductF A v source) weight (out.getD pos 0))) (pos + 1) (by
      rw [List.length_set]; omega)
    refine ⟨out', ?_, by rw [e2, List.length_set]⟩
    rw [runLoop]
    unfold addProductsF
    rw [hv]
    simp only [Res.ok_bind]
    rw [if_pos (by omega)]
    simp only [Res.ok_bind]
    unfold addProductsF at e1
    rw [e1, List.length_cons, Nat.add_assoc, Nat.add_comm 1]

theorem sampleInd_nonneg (hA : A.Rounds u) (hu1 : u ≤ 1) {ts dt : ℝ} (hts : 0 ≤ ts) (hdt : 0 ≤ dt) (k : Nat) : 0 ≤ sampleInd A ts dt k := by
  have h1 := (nonneg_round hu1 (x := (k : ℝ)) (by
    have := hA.ofNat k
    rwa [abs_of_nonneg (Nat.cast_nonneg k : (0 : ℝ) ≤ k)]) (Nat.cast_nonneg k)).1
  obtain ⟨p, q1, q2⟩ := hA.mulAdd (A.ofNat k) dt ts
  have h2 := (nonneg_round hu1 q1 (mul_nonneg h1 hdt)).1
  exact (nonneg_round hu1 q2 (by linarith)).1

/-- The chunks of the library: padded by more than the support of the kernel, small compared to the precision, sampled not too finely. -/
structure ChunksOk (B : Nat) (u : ℝ) (support : Nat) (dt : ℝ) (ms : List Meta) : Prop where
  padded : ∀ m ∈ ms, support < m.overlap
  small : ∀ m ∈ ms, Meta.Small m u
  size : ∀ m ∈ ms, ∀ d < 3, m.stop.getD d 0 + m.overlap ≤ B
  rate : ∀ m ∈ ms, (1 + u) ^ 2 * (m.stop.getD 2 0 : Nat) < 2 ^ 63 * dt

theorem accLoopF_safe {σ : Type} {L : Library σ ℝ} {I : σ → Prop} {ms : List Meta} {F : Nat → Int → Int → Int → ℝ} {Q : Int → Int → Int → Prop} (hL : Serves L I ms F Q)
    (hA : A.Rounds u) (hu1 : u ≤ 1) {B : Nat} (hB : A.Counts B) {kf kn : Kern ℝ} {kk : Nat} (hk : KernClose u kf kn kk) (hlast : kn.weight 0 (2 * kn.support - 1) = 0)
    (grow : ℝ → ℝ) (oob : OOB) {x y ts dt : ℝ} (hx : 0 ≤ x ∧ x < 2 ^ 62) (hy : 0 ≤ y ∧ y < 2 ^ 62) (hts : 0 ≤ ts) (hdt : 0 < dt) {n : Nat} (hn : n < U64)
    (hmax : ∀ k < n, sampleInd A ts dt k < 2 ^ 62) (hc : ChunksOk B u kn.support dt ms)
    (hoob : oob = .ignore ∨ ∀ k < n, ∃ m ∈ ms, InBox m.start m.stop (cell x y (sampleInd A ts dt k))) (source : List ℝ) (weight : ℝ) :
    ∀ (fuel : Nat) (a : Acc σ ℝ), I a.lib → a.pos + (n - a.cur) ≤ a.out.length → n - a.cur < fuel →
    accLoopF A L kf grow oob x y ts dt n source weight fuel a = .abort ∨
    ∃ b, accLoopF A L kf grow oob x y ts dt n source weight fuel a = .ok b ∧ I b.lib ∧ b.out.length = a.out.length := by
  have hU : U64 = 2 ^ 64 := rfl
  intro fuel
  induction fuel with
  | zero => intro a _ _ h; omega
  | succ fuel ih =>
    intro a hI hpos hfuel
    unfold accLoopF
    by_cases hcur : a.cur < n
    swap
    · rw [if_neg hcur]; exact Or.inr ⟨a, rfl, hI, rfl⟩
    rw [if_pos hcur]
    simp only
    set t := sampleInd A ts dt a.cur with htd
    have t0 : 0 ≤ t := sampleInd_nonneg hA hu1 hts hdt.le a.cur
    have fx := floor_lt62 hx.2
    have fy := floor_lt62 hy.2
    have ft : ⌊t⌋ < 2 ^ 62 := floor_lt62 (hmax a.cur hcur)
    have gx := Int.floor_nonneg.2 hx.1
    have gy := Int.floor_nonneg.2 hy.1
    have gt := Int.floor_nonneg.2 t0
    rw [modf_nonneg hx.1, modf_nonneg hy.1, modf_nonneg t0]
    simp only
    rw [toSize_ok gx (by omega), toSize_ok gy (by omega), toSize_ok gt (by omega)]
    simp only [Res.ok_bind]
    by_cases hin : ∃ m ∈ ms, InBox m.start m.stop (cell x y t)
    · obtain ⟨m, hm, hbox⟩ := hin
      obtain ⟨s', hf, hI'⟩ := hL.found a.lib (cell x y t) m hI hm hbox
      have hf' : L.find a.lib [⌊x⌋.toNat, ⌊y⌋.toNat, ⌊t⌋.toNat] = .ok (s', some m) := hf
      rw [hf']
      simp only [Res.ok_bind]
      have hM := hL.ok m hm
      have hov := hc.padded m hm
      rw [show Res.assert (decide (kf.support ≤ m.overlap)) = .ok () by rw [hk.support]; simp [hov.le]]
      simp only [Res.ok_bind]
      obtain ⟨bx, by', bt⟩ := inBox3 hM hx.1 hy.1 t0 hbox
      have lo : ∀ {q : Nat} {w : ℝ}, (q : Int) ≤ ⌊w⌋ → (q : ℝ) ≤ w := fun {q w} h => by have := Int.le_floor.1 h; simpa using this
      have hi : ∀ {q : Nat} {w : ℝ}, ⌊w⌋ < (q : Int) → w < (q : ℝ) := fun {q w} h => by have := Int.floor_lt.1 h; simpa using this
      have rate := hc.rate m hm
      rcases chunk_positions hA hu1 hB hM hov (hc.small m hm) (hc.size m hm) ⟨lo bx.1, hi bx.2⟩ ⟨lo by'.1, hi by'.2⟩ ⟨lo bt.1, hi bt.2⟩ hdt (left := n - a.cur)
          (by omega) (by omega) (by
            have : (1 + u) ^ 2 * ((m.stop.getD 2 0 : Nat) - t) ≤ (1 + u) ^ 2 * (m.stop.getD 2 0 : Nat) :=
              mul_le_mul_of_nonneg_left (by linarith) (by linarith [one_le_pow hA.nonneg 2])
            linarith) with hab | ⟨req, hreq, r0, rl, lx, ly, lt, ex, ey, et, -, -, ix, iy, ip⟩
      · left; rw [hab]; rfl
      rw [hreq]
      simp only [Res.ok_bind]
      have part : ∃ b, chunkPartF A L kf grow m x y t dt req source weight { a with lib := s' } = .ok b ∧ I b.lib ∧ b.out.length = a.out.length ∧
          b.pos + (n - (a.cur + req)) ≤ a.out.length ∧ b.cur = a.cur := by
        unfold chunkPartF
        split
        · exact ⟨_, rfl, hI', rfl, by show a.pos + _ ≤ _; omega, rfl⟩
        · next hsp =>
          obtain ⟨s'', buf, hload, hI'', hbuf, -⟩ := hL.load s' m hI' hm hsp
          rw [hload]
          simp only [Res.ok_bind]
          rw [ex, ey, et]
          simp only [Res.ok_bind]
          have st0 := hM.getD_stop 0
          have st1 := hM.getD_stop 1
          have st2 := hM.getD_stop 2
          have lt0 := hM.lt 0 (by decide)
          have lt1 := hM.lt 1 (by decide)
          have lt2 := hM.lt 2 (by decide)
          have hovl := hM.ovl
          have sh : m.shape.map (· + 2 * m.overlap) = [m.shape.getD 0 0 + 2 * m.overlap, m.shape.getD 1 0 + 2 * m.overlap, m.shape.getD 2 0 + 2 * m.overlap] := hM.shape3
          obtain ⟨d', e1, e2, -⟩ := interpolateF_ok hA hk hlast (vd := 2) (by decide) (by rw [← sh]; exact hbuf) (by omega) (by omega) (by omega) (hr := mkHdr 2 [a.size / 2]) rfl
            (List.replicate a.size 0) lx ly lt dt req (fun k => grow (a.mem.getD k 0)) ix iy (fun k hk' => Or.inl (ip k hk').2.1)
          rw [sh]
          rw [e1]
          simp only [Res.ok_bind]
          obtain ⟨out', q1, q2⟩ := addProductsF_ok A d' source weight req e2 (List.range req) (fun i hi => List.mem_range.1 hi) a.out a.pos (by rw [List.length_range]; omega)
          rw [q1]
          refine ⟨_, rfl, hI'', q2, ?_, rfl⟩
          show a.pos + (List.range req).length + _ ≤ _
          rw [List.length_range]; omega
      obtain ⟨b, hb, i1, i2, i3, i4⟩ := part
      rw [hb]
      simp only [Res.ok_bind]
      rcases ih { b with cur := b.cur + req } i1 (by show b.pos + (n - (b.cur + req)) ≤ b.out.length; rw [i4, i2]; exact i3) (by show n - (b.cur + req) < fuel; omega) with h | ⟨c, h1, h2, h3⟩
      · exact Or.inl h
      · exact Or.inr ⟨c, h1, h2, by rw [h3]; exact i2⟩
    · obtain ⟨s', hf, hI'⟩ := hL.missing a.lib (cell x y t) hI rfl (by
        intro d hd
        unfold cell
        interval_cases d <;> simp <;> omega) (fun m hm hb => hin ⟨m, hm, hb⟩)
      have hf' : L.find a.lib [⌊x⌋.toNat, ⌊y⌋.toNat, ⌊t⌋.toNat] = .ok (s', none) := hf
      rw [hf']
      simp only [Res.ok_bind]
      rcases hoob with h | h
      · rw [if_pos h]; exact Or.inr ⟨_, rfl, hI', rfl⟩
      · exact absurd (h a.cur hcur) hin

/-- C80 for the whole function `accumulate_inner_product`, from the floating-point indices on: whatever the roundings and the state of the library, it runs to its end or is stopped by
    an assertion; it never reads or writes outside of an array, and keeps the size of the signal. Samples outside of the domain are only allowed in the mode `Ignore`. -/
theorem C80_accumulate_safe_partial {σ : Type} {L : Library σ ℝ} {I : σ → Prop} {ms : List Meta} {F : Nat → Int → Int → Int → ℝ} {Q : Int → Int → Int → Prop} (hL : Serves L I ms F Q)
    (hA : A.Rounds u) (hu1 : u ≤ 1) {B : Nat} (hB : A.Counts B) {kf kn : Kern ℝ} {kk : Nat} (hk : KernClose u kf kn kk) (hlast : kn.weight 0 (2 * kn.support - 1) = 0)
    (grow : ℝ → ℝ) (junk : Nat → ℝ) (oob : OOB) {x y ts dt : ℝ} (hx : 0 ≤ x ∧ x < 2 ^ 62) (hy : 0 ≤ y ∧ y < 2 ^ 62) (hts : 0 ≤ ts) (hdt : 0 < dt) {n : Nat} (hn : n < U64)
    (hmax : ∀ k < n, sampleInd A ts dt k < 2 ^ 62) (hc : ChunksOk B u kn.support dt ms)
    (hoob : oob = .ignore ∨ ∀ k < n, ∃ m ∈ ms, InBox m.start m.stop (cell x y (sampleInd A ts dt k))) (source : List ℝ) (weight : ℝ) (out : List ℝ) (pos : Nat)
    (hout : pos + n ≤ out.length) (s : σ) (hs : I s) :
    accumulateF A L kf grow junk x y ts dt n source out pos weight oob s = .abort ∨
    ∃ s' out', accumulateF A L kf grow junk x y ts dt n source out pos weight oob s = .ok (s', out') ∧ I s' ∧ out'.length = out.length := by
  unfold accumulateF
  rcases accLoopF_safe hL hA hu1 hB hk hlast grow oob hx hy hts hdt hn hmax hc hoob source weight (n + 1) ⟨s, (List.range (n * 2)).map junk, n * 2, out, pos, 0⟩ hs hout
    (by show n - 0 < n + 1; omega) with h | ⟨b, h1, h2, h3⟩
  · left; rw [h]; rfl
  · right; rw [h1]; exact ⟨b.lib, b.out, rfl, h2, h3⟩

/-! ### Where the property fails -/

/-- In single precision, the numbers up to `2^24` are exact. -/
theorem singleA_counts : singleA.Counts (2 ^ 24) := by
  intro n hn
  show round24 n = n
  by_cases h0 : n = 0
  · have := nearest_int 0
    simp only [Int.cast_zero] at this
    simp [h0, round24, this]
  by_cases h24 : n = 2 ^ 24
  · rw [round24_eq 24 (2 ^ 23) (by rw [h24]; norm_num) (by rw [h24]; norm_num) (by rw [h24]; norm_num), h24]
    norm_num
  have hlog : Nat.log 2 n ≤ 23 := by
    have := Nat.log_lt_of_lt_pow h0 (show n < 2 ^ 24 by omega)
    omega
  have hp : (2 : ℕ) ^ Nat.log 2 n ≤ n := Nat.pow_log_le_self 2 h0
  have hp' : n < 2 ^ (Nat.log 2 n + 1) := Nat.lt_pow_succ_log_self (by norm_num) n
  have e : (n : ℝ) / 2 ^ ((Nat.log 2 n : ℤ) - 23) = ((n * 2 ^ (23 - Nat.log 2 n) : ℤ) : ℝ) := by
    have : (2 : ℝ) ^ ((Nat.log 2 n : ℤ) - 23) = ((2 : ℝ) ^ (23 - Nat.log 2 n))⁻¹ := by
      rw [← zpow_natCast, ← zpow_neg]
      congr 1
      omega
    rw [this, div_inv_eq_mul]
    push_cast
    rfl
  rw [round24_eq (Nat.log 2 n : ℤ) (n * 2 ^ (23 - Nat.log 2 n) : ℤ) (by rw [zpow_natCast]; exact_mod_cast hp)
    (by rw [show (Nat.log 2 n : ℤ) + 1 = ((Nat.log 2 n + 1 : ℕ) : ℤ) by push_cast; rfl, zpow_natCast]; exact_mod_cast hp') (by rw [e, sub_self, abs_zero]; norm_num), ← e,
    div_mul_cancel₀ _ (zpow_pos (by norm_num) _).ne']

/-- C80 fails: a chunk that ends at the index 7, samples at 0.3f + k · 0.1f (0.3f is 5033165 / 2^24, 0.1f is 13421773 / 2^27). The quotient (7 - 0.3f) / 0.1f is rounded to 67, but the position of
    sample 67 is rounded to a number above 7: the assertion stops the program. In exact arithmetic, samples 0 to 66 would be taken from the chunk. -/
theorem C80_assertion_fails : round24 (5033165 / 2 ^ 24) = 5033165 / 2 ^ 24 ∧ round24 (13421773 / 2 ^ 27) = 13421773 / 2 ^ 27 ∧
    requestF singleA 7 (5033165 / 2 ^ 24) (13421773 / 2 ^ 27) 100 = .abort ∧ requestF exactA 7 (5033165 / 2 ^ 24) (13421773 / 2 ^ 27) 100 = .ok 67 := by
  have hU : U64 = 2 ^ 64 := rfl
  refine ⟨?_, ?_, ?_, ?_⟩
  · rw [round24_eq (-2) 10066330 (by norm_num) (by norm_num) (by norm_num)]; norm_num
  · rw [round24_eq (-4) 13421773 (by norm_num) (by norm_num) (by norm_num)]; norm_num
  · have c7 : singleA.ofNat 7 = 7 := singleA_counts 7 (by norm_num)
    have c67 : singleA.ofNat 67 = 67 := singleA_counts 67 (by norm_num)
    have s1 : singleA.sub 7 (5033165 / 2 ^ 24) = 14050918 / 2 ^ 21 := by
      show round24 _ = _
      rw [round24_eq 2 14050918 (by norm_num) (by norm_num) (by norm_num)]; norm_num
    have d1 : singleA.div (14050918 / 2 ^ 21) (13421773 / 2 ^ 27) = ((67 : ℤ) : ℝ) := by
      show round24 _ = _
      rw [round24_eq 6 (67 * 2 ^ 17) (by norm_num) (by norm_num) (by norm_num)]; norm_num
    have m1 : singleA.mulAdd 67 (13421773 / 2 ^ 27) (5033165 / 2 ^ 24) = 14680065 / 2 ^ 21 := by
      show round24 (_ + round24 _) = _
      rw [round24_eq (x := 67 * (13421773 / 2 ^ 27)) 2 14050919 (by norm_num) (by norm_num) (by norm_num)]
      rw [round24_eq 2 14680065 (by norm_num) (by norm_num) (by norm_num)]; norm_num
    unfold requestF
    rw [c7, s1, d1, modf_nonneg (by norm_num)]
    simp only [Int.floor_intCast]
    rw [toSize_ok (by norm_num) (by norm_num [hU])]
    simp only [Res.ok_bind]
    have r : min (wadd (Int.toNat 67) 1) 100 = 68 := by decide +kernel
    have w : wsub 68 1 = 67 := by decide +kernel
    rw [r, w, c67, m1]
    have : ¬ ((14680065 / 2 ^ 21 : ℝ) ≤ 7) := by norm_num
    simp [this, Res.assert]
    rfl
  · unfold requestF
    have q : exactA.div (exactA.sub (exactA.ofNat 7) (5033165 / 2 ^ 24)) (13421773 / 2 ^ 27) = (7 - 5033165 / 2 ^ 24) / (13421773 / 2 ^ 27) := by simp [exactA]
    rw [q, modf_nonneg (by norm_num)]
    have f : ⌊((7 - 5033165 / 2 ^ 24) / (13421773 / 2 ^ 27) : ℝ)⌋ = 66 := by
      rw [Int.floor_eq_iff]; constructor <;> norm_num
    simp only [f]
    rw [toSize_ok (by norm_num) (by norm_num [hU])]
    simp only [Res.ok_bind]
    have r : min (wadd (Int.toNat 66) 1) 100 = 67 := by decide +kernel
    have w : wsub 67 1 = 66 := by decide +kernel
    rw [r, w]
    have : exactA.mulAdd (exactA.ofNat 66) (13421773 / 2 ^ 27) (5033165 / 2 ^ 24) ≤ exactA.ofNat 7 := by
      show (5033165 / 2 ^ 24 : ℝ) + ((66 : ℕ) : ℝ) * (13421773 / 2 ^ 27) ≤ ((7 : ℕ) : ℝ)
      norm_num
    simp [this]

theorem runLoop_ok_mem {σ ι : Type} {f : ι → σ → Res σ} : ∀ {l : List ι} {s s' : σ}, runLoop f l s = .ok s' → ∀ i ∈ l, ∃ a b, f i a = .ok b := by
  intro l
  induction l with
  | nil => intro s s' _ i hi; cases hi
  | cons j l ih =>
    intro s s' h i hi
    rw [runLoop] at h
    obtain ⟨s1, h1, h2⟩ := Res.bind_eq_ok.1 h
    rcases List.mem_cons.1 hi with e | e
    · exact ⟨s, s1, e ▸ h1⟩
    · exact ih h2 i e

/-- The chunk that covers the indices [0, 1) × [0, 1) × [16, 30), with the padding the linear kernel needs. -/
def tight : Meta := mkMeta .specified [] 0 [0, 0, 16] [1, 1, 14] 1

/-- C80 fails if the padding is just the support of the kernel: linear kernel, chunk with indices [16, 30) along the last axis and padding 1, samples at 17.1f + k · 0.1f (17.1f is 8965325 / 2^19). The
    assertion holds and 130 samples are requested, but relative to the start of the chunk's array, where numbers are more precise, the position of the last sample is 15 + 2^-20, and
    the kernel needs index 16 of 16: the program reads behind the end of the array. -/
theorem C80_over_read (data : List ℝ) (hd : data.length = volume 2 (tight.shape.map (· + 2 * tight.overlap))) :
    requestF singleA 30 (8965325 / 2 ^ 19) (13421773 / 2 ^ 27) 1000 = .ok 130 ∧
    ∀ d, chunkInterpF singleA (linearF singleA) tight data 0 0 (8965325 / 2 ^ 19) (13421773 / 2 ^ 27) 130 ≠ .ok d := by
  have hU : U64 = 2 ^ 64 := rfl
  have c30 : singleA.ofNat 30 = 30 := singleA_counts 30 (by norm_num)
  have c129 : singleA.ofNat 129 = 129 := singleA_counts 129 (by norm_num)
  constructor
  · have s1 : singleA.sub 30 (8965325 / 2 ^ 19) = 6763315 / 2 ^ 19 := by
      show round24 _ = _
      rw [round24_eq 3 13526630 (by norm_num) (by norm_num) (by norm_num)]; norm_num
    have d1 : singleA.div (6763315 / 2 ^ 19) (13421773 / 2 ^ 27) = ((129 : ℤ) : ℝ) := by
      show round24 _ = _
      rw [round24_eq 7 (129 * 2 ^ 16) (by norm_num) (by norm_num) (by norm_num)]; norm_num
    have m1 : singleA.mulAdd 129 (13421773 / 2 ^ 27) (8965325 / 2 ^ 19) = 30 := by
      show round24 (_ + round24 _) = _
      rw [round24_eq (x := 129 * (13421773 / 2 ^ 27)) 3 13526631 (by norm_num) (by norm_num) (by norm_num)]
      rw [round24_tie 4 15728640 (by norm_num) (by norm_num) (by norm_num) (by decide)]; norm_num
    unfold requestF
    rw [c30, s1, d1, modf_nonneg (by norm_num)]
    simp only [Int.floor_intCast]
    rw [toSize_ok (by norm_num) (by norm_num [hU])]
    simp only [Res.ok_bind]
    have r : min (wadd (Int.toNat 129) 1) 1000 = 130 := by decide +kernel
    have w : wsub 130 1 = 129 := by decide +kernel
    rw [r, w, c129, m1]
    simp
  · intro d h
    unfold chunkInterpF at h
    have sh : tight.shape.map (· + 2 * tight.overlap) = [3, 3, 16] := by decide +kernel
    have o0 : tight.offset.getD 0 0 = wsub 0 1 := by decide +kernel
    have o1 : tight.offset.getD 1 0 = wsub 0 1 := by decide +kernel
    have o2 : tight.offset.getD 2 0 = 15 := by decide +kernel
    have z : toLocalF singleA 0 (wsub 0 1) = .ok ((1 : ℤ) : ℝ) := by
      unfold toLocalF
      rw [modf_nonneg le_rfl]
      simp only [Int.floor_zero, Int.fract_zero]
      rw [toSize_ok (by norm_num) (by norm_num [hU])]
      simp only [Res.ok_bind]
      have w : wsub (Int.toNat 0) (wsub 0 1) = 1 := by decide +kernel
      rw [w, singleA_counts 1 (by norm_num)]
      show Res.ok (round24 _) = _
      rw [round24_eq 0 (2 ^ 23) (by norm_num) (by norm_num) (by norm_num)]; norm_num
    have ft : ⌊(8965325 / 2 ^ 19 : ℝ)⌋ = 17 := by
      rw [Int.floor_eq_iff]; constructor <;> norm_num
    have zt : toLocalF singleA (8965325 / 2 ^ 19) 15 = .ok (1101005 / 2 ^ 19) := by
      unfold toLocalF
      rw [modf_nonneg (by norm_num)]
      simp only [Int.fract, ft]
      rw [toSize_ok (by norm_num) (by norm_num [hU])]
      simp only [Res.ok_bind]
      have w : wsub (Int.toNat 17) 15 = 2 := by decide +kernel
      rw [w, singleA_counts 2 (by norm_num)]
      show Res.ok (round24 _) = _
      rw [round24_eq 1 8808040 (by norm_num) (by norm_num) (by norm_num)]; norm_num
    rw [o0, o1, o2, z, zt, sh] at h
    simp only [Res.ok_bind] at h
    obtain ⟨r, hr, -⟩ := Res.bind_eq_ok.1 h
    unfold interpolateF at hr
    obtain ⟨rs, hrs, hr⟩ := Res.bind_eq_ok.1 hr
    rw [modf_nonneg (by norm_num : (0 : ℝ) ≤ ((1 : ℤ) : ℝ))] at hr
    simp only [Int.floor_intCast] at hr
    rw [toSize_ok (by norm_num) (by norm_num [hU])] at hr
    simp only [Res.ok_bind] at hr
    obtain ⟨k0, -, hr⟩ := Res.bind_eq_ok.1 hr
    obtain ⟨k1, -, hr⟩ := Res.bind_eq_ok.1 hr
    obtain ⟨d', hr, -⟩ := Res.bind_eq_ok.1 hr
    have hc : columns (linearF singleA).support (Int.toNat 1) = [1, 2] := by
      show columns 1 1 = [1, 2]
      decide +kernel
    rw [hc] at hr
    obtain ⟨a1, b1, q1⟩ := runLoop_ok_mem hr 2 (by simp)
    obtain ⟨a2, b2, q2⟩ := runLoop_ok_mem q1 2 (by simp)
    obtain ⟨a3, b3, q3⟩ := runLoop_ok_mem q2 129 (by simp)
    have p1 : sampleInd singleA (1101005 / 2 ^ 19) (13421773 / 2 ^ 27) 129 = 15728641 / 2 ^ 20 := by
      unfold sampleInd
      rw [c129]
      show round24 (_ + round24 _) = _
      rw [round24_eq (x := 129 * (13421773 / 2 ^ 27)) 3 13526631 (by norm_num) (by norm_num) (by norm_num)]
      rw [round24_eq 3 15728641 (by norm_num) (by norm_num) (by norm_num)]; norm_num
    have fp : ⌊(15728641 / 2 ^ 20 : ℝ)⌋ = 15 := by
      rw [Int.floor_eq_iff]; constructor <;> norm_num
    unfold sampleStepF at q3
    rw [p1, modf_nonneg (by norm_num)] at q3
    simp only [fp] at q3
    rw [toSize_ok (by norm_num) (by norm_num [hU])] at q3
    simp only [Res.ok_bind] at q3
    obtain ⟨ker, hker, q3⟩ := Res.bind_eq_ok.1 q3
    obtain ⟨v, hv, -⟩ := Res.bind_eq_ok.1 q3
    have hlen : ker.length = 2 := by
      obtain ⟨w, e1, e2⟩ := (linear_close singleA_rounds).usable.total (Int.fract (15728641 / 2 ^ 20)) (Int.fract_nonneg _) (Int.fract_lt_one _)
      rw [e1] at hker
      cases hker
      exact e2
    unfold interp1dF at hv
    rw [hlen, hd, sh, flat3] at hv
    have : ¬ (((2 * 3 + 2) * 16 + 0) * 2 + 2 * wsub (Int.toNat 15) ((linearF singleA).support - 1) + 2 * 2 ≤ volume 2 [3, 3, 16]) := by
      have w : wsub (Int.toNat 15) ((linearF singleA).support - 1) = 15 := by
        show wsub 15 0 = 15
        decide +kernel
      rw [w]
      decide +kernel
    rw [if_neg this] at hv
    cases hv

/-! ### Example -/

/-- The same chunk with one more layer of padding. -/
def wide : Meta := mkMeta .specified [] 0 [0, 0, 16] [1, 1, 14] 2

-- The hypotheses of `C80_reads_in_bounds_partial` are met in single precision; the samples of `C80_over_read` are then read correctly.
example (data : List ℝ) (hd : data.length = volume 2 (wide.shape.map (· + 2 * wide.overlap))) :
    requestF singleA 30 (8965325 / 2 ^ 19) (13421773 / 2 ^ 27) 1000 = .abort ∨
    ∃ req, requestF singleA 30 (8965325 / 2 ^ 19) (13421773 / 2 ^ 27) 1000 = .ok req ∧ 0 < req ∧
      ∃ d, chunkInterpF singleA (linearF singleA) wide data 0 (1 / 3) (8965325 / 2 ^ 19) (13421773 / 2 ^ 27) req = .ok d := by
  have hM : MetaOk wide := ⟨rfl, rfl, by decide +kernel, by decide +kernel, by decide +kernel, by decide +kernel⟩
  have hst : wide.stop = [1, 1, 30] := by decide +kernel
  have hsa : wide.start = [0, 0, 16] := by decide +kernel
  have hsh : wide.shape = [1, 1, 14] := by decide +kernel
  have hov : wide.overlap = 2 := by decide +kernel
  have h := C80_reads_in_bounds_partial singleA_rounds (by norm_num) singleA_counts (linear_close singleA_rounds) linear_usable.last (m := wide) hM
    (by rw [hov]; decide) (by
      intro d hd
      rw [hsh, hov]
      interval_cases d <;> norm_num) (by
      intro d hd
      rw [hst, hov]
      interval_cases d <;> norm_num) hd (x := 0) (y := 1 / 3) (t := 8965325 / 2 ^ 19) (dt := 13421773 / 2 ^ 27) (left := 1000)
    (by rw [hst, hsa]; norm_num) (by rw [hst, hsa]; norm_num) (by rw [hst, hsa]; norm_num) (by norm_num) (by norm_num) (by decide +kernel) (by rw [hst]; norm_num)
  have e : wide.stop.getD 2 0 = 30 := by rw [hst]; rfl
  rw [e] at h
  rcases h with h | ⟨req, h1, h2, -, d, -, -, -, h3, -⟩
  · exact Or.inl h
  · exact Or.inr ⟨req, h1, h2, d, h3⟩

/-- A library that consists of this chunk, in which the field vanishes. -/
noncomputable def zeroLib : Library Unit ℝ where
  find _ p := .ok ((), @ite _ (InBox wide.start wide.stop p) (Classical.propDecidable _) (some wide) none)
  load _ m := .ok ((), m.shape.map (· + 2 * m.overlap), List.replicate (volume 2 (m.shape.map (· + 2 * m.overlap))) 0)

theorem zeroLib_serves : Serves zeroLib (fun _ => True) [wide] (fun _ _ _ _ => 0) where
  ok m hm := by
    rw [List.mem_singleton.1 hm]
    exact ⟨rfl, rfl, by decide +kernel, by decide +kernel, by decide +kernel, by decide +kernel⟩
  found s p m _ hm hb := by
    rw [List.mem_singleton.1 hm] at hb ⊢
    refine ⟨(), ?_, trivial⟩
    simp only [zeroLib]
    rw [if_pos hb]
  missing s p _ _ _ h := by
    refine ⟨(), ?_, trivial⟩
    simp only [zeroLib]
    rw [if_neg (h wide (by simp))]
  load s m _ _ _ := by
    refine ⟨(), _, rfl, trivial, by simp, fun c i j k _ _ _ => ?_⟩
    have h := component_le (vd := 2) (h := mkHdr 2 (m.shape.map (· + 2 * m.overlap))) (buf := List.replicate (volume 2 (m.shape.map (· + 2 * m.overlap))) (0 : ℝ)) (M := 0)
      (fun v hv => by rw [List.eq_of_mem_replicate hv, abs_zero]) le_rfl c (i - m.start.getD 0 0 + m.overlap) (j - m.start.getD 1 0 + m.overlap) (k - m.start.getD 2 0 + m.overlap)
    exact abs_eq_zero.1 (le_antisymm h (abs_nonneg _))
  null := by intros; rfl

-- The hypotheses of `C80_accumulate_safe_partial` are met: 500 samples from 17.1f on, of which the later ones are outside of the domain.
example (out : List ℝ) (hout : out.length = 500) (junk : Nat → ℝ) :
    accumulateF singleA zeroLib (linearF singleA) id junk 0 (1 / 3) (8965325 / 2 ^ 19) (13421773 / 2 ^ 27) 500 [1, 2] out 0 1 .ignore () = .abort ∨
    ∃ s' out', accumulateF singleA zeroLib (linearF singleA) id junk 0 (1 / 3) (8965325 / 2 ^ 19) (13421773 / 2 ^ 27) 500 [1, 2] out 0 1 .ignore () = .ok (s', out') ∧
      out'.length = 500 := by
  have hst : wide.stop = [1, 1, 30] := by decide +kernel
  have hsh : wide.shape = [1, 1, 14] := by decide +kernel
  have hov : wide.overlap = 2 := by decide +kernel
  have h := C80_accumulate_safe_partial zeroLib_serves singleA_rounds (by norm_num) singleA_counts (linear_close singleA_rounds) linear_usable.last id junk .ignore (x := 0) (y := 1 / 3)
    (ts := 8965325 / 2 ^ 19) (dt := 13421773 / 2 ^ 27) (by norm_num) (by norm_num) (by norm_num) (by norm_num) (n := 500) (by decide +kernel) (by
      intro k hk
      have h := C79_positions singleA_rounds (8965325 / 2 ^ 19) (13421773 / 2 ^ 27) k
      have hk' : (k : ℝ) ≤ 500 := by exact_mod_cast hk.le
      have hk0 : (0 : ℝ) ≤ k := Nat.cast_nonneg k
      rw [abs_of_pos (by norm_num : (0 : ℝ) < 8965325 / 2 ^ 19), abs_of_nonneg (by positivity : (0 : ℝ) ≤ k * (13421773 / 2 ^ 27))] at h
      have h2 := (abs_le.1 h).2
      norm_num at h2 ⊢
      nlinarith) (by
      refine ⟨?_, ?_, ?_, ?_⟩
      · intro m hm; rw [List.mem_singleton.1 hm, hov]; decide
      · intro m hm d hd
        rw [List.mem_singleton.1 hm, hsh, hov]
        interval_cases d <;> norm_num
      · intro m hm d hd
        rw [List.mem_singleton.1 hm, hst, hov]
        interval_cases d <;> norm_num
      · intro m hm
        rw [List.mem_singleton.1 hm, hst]; norm_num) (Or.inl rfl) [1, 2] 1 out 0 (by omega) () trivial
  rcases h with h | ⟨s', out', h1, -, h3⟩
  · exact Or.inl h
  · exact Or.inr ⟨s', out', h1, by rw [h3, hout]⟩

end Verif.Green
