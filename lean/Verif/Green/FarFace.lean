import Verif.Green.Props42
/-
Resampling a Green's function with a sample on the far radial face of a chunk.
-/
namespace Verif.Green
open Verif Verif.ND Verif.Dist Verif.Tree Verif.NullSup

set_option linter.unusedSectionVars false

variable {K : Type} [Field K] [LinearOrder K] [IsStrictOrderedRing K] [FloorRing K]

/-- A loop that ends well did each turn well, in a state that satisfies the invariant. -/
theorem runLoop_turn {σ ι : Type} {f : ι → σ → Res σ} (J : σ → Prop) : ∀ (l : List ι) {a b : σ}, (∀ i ∈ l, ∀ a b, J a → f i a = .ok b → J b) → J a → runLoop f l a = .ok b →
    ∀ i ∈ l, ∃ a' b', J a' ∧ f i a' = .ok b'
  | [], _, _, _, _, _ => fun i hi => by cases hi
  | j :: l, a, b, hJ, ha, h => fun i hi => by
    obtain ⟨c, h1, h2⟩ := Res.bind_eq_ok.1 h
    rcases List.mem_cons.1 hi with rfl | hi
    · exact ⟨a, c, ha, h1⟩
    · exact runLoop_turn J l (fun i hi => hJ i (List.mem_cons_of_mem _ hi)) (hJ j List.mem_cons_self a c ha h1) h2 i hi

theorem columns_mem {support : Nat} (hp : 0 < support) (hs : support < 2 ^ 32) {x : K} (h0 : (support : Int) - 1 ≤ ⌊x⌋) (h1 : ⌊x⌋ < 2 ^ 63) {i : Nat} :
    i ∈ columns support ⌊x⌋.toNat ↔ ⌊x⌋ - (support - 1 : Int) ≤ i ∧ (i : Int) ≤ ⌊x⌋ + support := by
  have hU : U64 = 2 ^ 64 := rfl
  rw [(columns_eq (support := support) (s := ⌊x⌋.toNat + support + 1) (x := x) hp (by omega) ⟨h0, by push_cast; omega⟩).2, List.mem_range'_1]
  omega

/-- The interpolation of a sample reads up to this element. -/
theorem interpolate_reads {kn : Kern K} (hk : kn.Usable) {vd s0 s1 s2 : Nat} (hv : 0 < vd) {buf : List K} (hl : buf.length = volume vd [s0, s1, s2]) {hr : Hdr} {ret : List K} {x y start delta : K} {n : Nat}
    {junk : Nat → K} {a b c : Nat} (hx0 : (kn.support : Int) - 1 ≤ ⌊x⌋) (hx : ⌊x⌋ + kn.support = a) (hxs : a < 2 ^ 63) (hy0 : (kn.support : Int) - 1 ≤ ⌊y⌋) (hy : ⌊y⌋ + kn.support = b) (hys : b < 2 ^ 63)
    {k : Nat} (hkn : k < n) (ht0 : (kn.support : Int) - 1 ≤ ⌊start + k * delta⌋) (ht : ⌊start + k * delta⌋ + kn.support = c) (hts : c < 2 ^ 63) {r : Hdr × List K}
    (h : interpolate kn vd (mkHdr vd [s0, s1, s2]) buf hr ret x y start delta n junk = .ok r) : (a * s1 + b) * s2 + c + 1 ≤ s0 * s1 * s2 := by
  have hU : U64 = 2 ^ 64 := rfl
  have hp := hk.support
  have hsm := hk.small
  have hx00 : 0 ≤ x := Int.floor_nonneg.1 (by omega)
  have hy00 : 0 ≤ y := Int.floor_nonneg.1 (by omega)
  have ht00 : 0 ≤ start + k * delta := Int.floor_nonneg.1 (by omega)
  unfold interpolate at h
  obtain ⟨a', _, h⟩ := Res.bind_eq_ok.1 h
  obtain ⟨o0, e0, h⟩ := Res.bind_eq_ok.1 h
  obtain ⟨o1, e1, h⟩ := Res.bind_eq_ok.1 h
  obtain ⟨k0, _, h⟩ := Res.bind_eq_ok.1 h
  obtain ⟨k1, _, h⟩ := Res.bind_eq_ok.1 h
  obtain ⟨d, h, _⟩ := Res.bind_eq_ok.1 h
  rw [modf_nonneg hx00] at e0
  rw [modf_nonneg hy00] at e1
  rw [toSize_ok (by simp only; omega) (by simp only; omega)] at e0 e1
  cases e0
  cases e1
  obtain ⟨_, _, _, h⟩ := runLoop_turn (fun _ => True) _ (fun _ _ _ _ _ _ => trivial) trivial h a ((columns_mem hp hk.small hx0 (by omega)).2 ⟨by omega, by omega⟩)
  obtain ⟨_, _, _, h⟩ := runLoop_turn (fun _ => True) _ (fun _ _ _ _ _ _ => trivial) trivial h b ((columns_mem hp hk.small hy0 (by omega)).2 ⟨by omega, by omega⟩)
  obtain ⟨_, _, _, h⟩ := runLoop_turn (fun _ => True) _ (fun _ _ _ _ _ _ => trivial) trivial h k (List.mem_range.2 hkn)
  unfold sampleStep at h
  rw [modf_nonneg ht00] at h
  simp only at h
  obtain ⟨inner, e5, h⟩ := Res.bind_eq_ok.1 h
  rw [toSize_ok (by omega) (by omega)] at e5
  cases e5
  obtain ⟨ker, e2, h⟩ := Res.bind_eq_ok.1 h
  obtain ⟨v, h, _⟩ := Res.bind_eq_ok.1 h
  obtain ⟨w, e3, e4⟩ := hk.total (Int.fract (start + k * delta)) (Int.fract_nonneg _) (Int.fract_lt_one _)
  rw [e3] at e2
  cases e2
  unfold interp1d at h
  split at h
  · next hle =>
    rw [flat3, hl, volume3, wsub_eq (by omega) (by omega), e4] at hle
    have e6 : ⌊start + k * delta⌋.toNat - (kn.support - 1) + 2 * kn.support = c + 1 := by omega
    have e7 : ((a * s1 + b) * s2 + 0) * vd + vd * (⌊start + k * delta⌋.toNat - (kn.support - 1)) + vd * (2 * kn.support) = vd * ((a * s1 + b) * s2 + (c + 1)) := by
      rw [← e6]; ring
    rw [e7, Nat.mul_comm (s0 * s1 * s2) vd] at hle
    have := Nat.le_of_mul_le_mul_left hle hv
    omega
  · cases h

section
variable {σ : Type} {L : RangeLibrary σ K} {I : σ → Prop} {ms : List Meta} {A : Nat → Int → Int → Int → K} {Q : Int → Int → Int → Prop} {kn : Kern K} {s e : RZT K} {num : RZT Nat}

theorem fillChunk_keeps {L : Library σ K} (hL : Serves L I ms A Q) {h : Hdr} {m : Meta} (hm : m ∈ ms) {st st' : σ × List K} (hI : I st.1) (hok : fillChunk L kn s e num h m st = .ok st') : I st'.1 := by
  unfold fillChunk at hok
  cases hsp : m.ctype with
  | all_null => rw [hsp] at hok; cases hok; exact hI
  | specified =>
    rw [hsp] at hok
    simp only at hok
    obtain ⟨q, hq, hok⟩ := Res.bind_eq_ok.1 hok
    obtain ⟨s', data, l1, l2, _, _⟩ := hL.load st.1 m hI hm hsp
    rw [l1] at hq
    cases hq
    obtain ⟨_, _, hok⟩ := Res.bind_eq_ok.1 hok
    obtain ⟨_, _, hok⟩ := Res.bind_eq_ok.1 hok
    obtain ⟨_, _, hok⟩ := Res.bind_eq_ok.1 hok
    obtain ⟨_, _, hok⟩ := Res.bind_eq_ok.1 hok
    cases hok
    exact l2

theorem fillChunk_reads {L : Library σ K} (hL : Serves L I ms A Q) (hk : kn.Usable) (hR : RangeOk s e num) {m : Meta} (hm : m ∈ ms) (hit : Hit s e m) (hsp : m.ctype = .specified) (hov : m.overlap = kn.support)
    {i j k : Nat} (hi : i < num.r) (hj : j < num.z) (hk' : k < num.t) (hon : OnSample s e num m i j k) {h : Hdr} {st st' : σ × List K} (hI : I st.1)
    (hok : fillChunk L kn s e num h m st = .ok st') {a b c : Nat} (ha : ⌊posR s e num i⌋ - m.start.getD 0 0 + 2 * m.overlap = a) (hb : ⌊posZ s e num j⌋ - m.start.getD 1 0 + 2 * m.overlap = b)
    (hc : ⌊posT s e num k⌋ - m.start.getD 2 0 + 2 * m.overlap = c) :
    (a * (m.shape.getD 1 0 + 2 * m.overlap) + b) * (m.shape.getD 2 0 + 2 * m.overlap) + c + 1 ≤
      (m.shape.getD 0 0 + 2 * m.overlap) * (m.shape.getD 1 0 + 2 * m.overlap) * (m.shape.getD 2 0 + 2 * m.overlap) := by
  have hU : U64 = 2 ^ 64 := rfl
  have hM := hL.ok m hm
  unfold fillChunk at hok
  rw [hsp] at hok
  simp only at hok
  obtain ⟨s', data, l1, l2, l3, _⟩ := hL.load st.1 m hI hm hsp
  have st0 := hM.getD_stop 0
  have st1 := hM.getD_stop 1
  have st2 := hM.getD_stop 2
  obtain ⟨a0, b0, p1, p2, p3, p4, pg, p5⟩ := outRange_ok hR.r (cs := m.start.getD 0 0) (ce := m.stop.getD 0 0) (by omega) hit.r.2 hit.r.1
  obtain ⟨a1, b1, q1, q2, q3, q4, qg, q5⟩ := outRange_ok hR.z (cs := m.start.getD 1 0) (ce := m.stop.getD 1 0) (by omega) hit.z.2 hit.z.1
  obtain ⟨a2, b2, r1, r2, r3, r4, rg, r5⟩ := outRange_ok hR.t (cs := m.start.getD 2 0) (ce := m.stop.getD 2 0) (by omega) hit.t.2 hit.t.1
  rw [l1, p1, q1, r1] at hok
  simp only [Res.ok_bind] at hok
  rw [hR.r.stepSize, hR.z.stepSize, hR.t.stepSize] at hok
  simp only [Option.getD_some] at hok
  obtain ⟨buf, hok, _⟩ := Res.bind_eq_ok.1 hok
  have hkt := (r5 k).2 ⟨hk', hon.2.2⟩
  have hb2 : b2 ≤ num.t := by have := ((r5 (b2 - 1)).1 ⟨by omega, by omega⟩).1; omega
  have hmany := hR.t.many
  rw [wsub_eq (by omega) (by omega)] at hok
  obtain ⟨_, _, _, hok⟩ := runLoop_turn (fun _ => True) _ (fun _ _ _ _ _ _ => trivial) trivial hok [i, j] (mem_elem2.2 ⟨(p5 i).2 ⟨hi, hon.1⟩, (q5 j).2 ⟨hj, hon.2.1⟩⟩)
  have ex : ((i : Nat) : K) * ((e.r - s.r) / ((num.r : K) - 1)) + s.r = posR s e num i := by unfold posR samplePos; ring
  have ey : ((j : Nat) : K) * ((e.z - s.z) / ((num.z : K) - 1)) + s.z = posZ s e num j := by unfold posZ samplePos; ring
  have et : ((a2 : Nat) : K) * ((e.t - s.t) / ((num.t : K) - 1)) + s.t = posT s e num a2 := by unfold posT samplePos; ring
  have lt0 := hM.lt 0 (by decide)
  have lt1 := hM.lt 1 (by decide)
  have lt2 := hM.lt 2 (by decide)
  have hovl := hM.ovl
  have fx := onAxis_floor hon.1
  have fy := onAxis_floor hon.2.1
  have fz := onAxis_floor hon.2.2
  have ft := lt62 (lt_of_le_of_lt (hR.t.pos_le r3) hR.t.hi)
  change ⌊posT s e num a2⌋ < 2 ^ 62 at ft
  have hge : (m.start.getD 2 0 : Int) ≤ ⌊posT s e num a2⌋ := by
    rw [Int.le_floor]; exact_mod_cast rg
  unfold fillOne at hok
  simp only [List.getD_cons_zero, List.getD_cons_succ] at hok
  rw [ex, ey, et, hM.getD_offset (d := 0) (by decide), hM.getD_offset (d := 1) (by decide), hM.getD_offset (d := 2) (by decide),
    toLocal_ok lt0 hovl fx.1 fx.2, toLocal_ok lt1 hovl fy.1 fy.2, toLocal_ok (stop := ⌊posT s e num a2⌋.toNat) (by omega) hovl hge (by omega)] at hok
  simp only [Res.ok_bind] at hok
  obtain ⟨r, hok, _⟩ := Res.bind_eq_ok.1 hok
  have hsh := hM.shape3
  rw [hsh] at hok l3
  have hp := hk.support
  have step : posT s e num a2 - (((m.start.getD 2 0 : Int) - (m.overlap : Int) : Int) : K) + ((k - a2 : Nat) : K) * ((e.t - s.t) / ((num.t : K) - 1)) =
      posT s e num k - (((m.start.getD 2 0 : Int) - (m.overlap : Int) : Int) : K) := by
    unfold posT samplePos
    rw [Nat.cast_sub hkt.1]
    ring
  refine interpolate_reads hk (by decide) l3 (a := a) (b := b) (c := c) (k := k - a2) ?_ ?_ (by omega) ?_ ?_ (by omega) (by omega) ?_ ?_ (by omega) hok
  · rw [Int.floor_sub_intCast]; omega
  · rw [Int.floor_sub_intCast]; omega
  · rw [Int.floor_sub_intCast]; omega
  · rw [Int.floor_sub_intCast]; omega
  · rw [step, Int.floor_sub_intCast]; omega
  · rw [step, Int.floor_sub_intCast]; omega

/-- The interpolation at this point of the chunk needs an element behind the last one of the padded chunk: the point is on the far radial face of the chunk; or in the last cell in radial direction and on the far face
    in vertical direction; or in the last cell in both of them and on the far face in time. -/
def Behind (G : GMeta K) (m : Meta) (r z t : K) : Prop :=
  G.x r = (m.stop.getD 0 0 : Nat) ∨ ⌊G.x r⌋ + 1 = (m.stop.getD 0 0 : Nat) ∧ (G.y z = (m.stop.getD 1 0 : Nat) ∨ ⌊G.y z⌋ + 1 = (m.stop.getD 1 0 : Nat) ∧ G.t t = (m.stop.getD 2 0 : Nat))

/-- **C42**, the other defect, in general: if the overlap of the chunks is just the support of the kernel (as in all calculators of the project, with the cubic kernel), and one of the samples lies exactly on a far
    face of a stored chunk that the search finds (on the radial one; or on another one, in the last cells along the axes before), `fill_array` reads behind the end of the chunk: no result is defined. -/
theorem C42_far_face_undefined {L : RangeLibrary σ K} (hL : Serves L.toLibrary I ms A Q) (hS : Searches L I ms) (hk : kn.Usable) {G : GMeta K} {gend start stop : RZT K} (hcall : CallOk G gend start stop num)
    {m : Meta} (hm : m ∈ ms) (hsp : m.ctype = .specified) (hse : Searched G m start stop) (hov : m.overlap = kn.support) {i j k : Nat} (hi : i < num.r) (hj : j < num.z) (hk' : k < num.t)
    (hcov : Covers G m (coordAt start.r stop.r num.r i) (coordAt start.z stop.z num.z j) (coordAt start.t stop.t num.t k))
    (hfar : Behind G m (coordAt start.r stop.r num.r i) (coordAt start.z stop.z num.z j) (coordAt start.t stop.t num.t k))
    {ha : Hdr} (arr : List K) (junk : Nat → K) {st : σ} (hI : I st) (r : σ × Hdr × List K) : fillArray L G gend kn start stop num ha arr junk st ≠ .ok r := by
  intro hok
  have hU : U64 = 2 ^ 64 := rfl
  have hR := hcall.range
  have cv : ∀ {x : K}, 0 ≤ x → x < 2 ^ 62 → toSize (modf x).1 = .ok ⌊x⌋.toNat := by
    intro x h0 h1
    have := lt62 h1
    have := Int.floor_nonneg.2 h0
    rw [modf_nonneg h0]
    exact toSize_ok (by simpa using this) (by simp only; omega)
  unfold fillArray at hok
  obtain ⟨_, _, hok⟩ := Res.bind_eq_ok.1 hok
  obtain ⟨_, _, hok⟩ := Res.bind_eq_ok.1 hok
  obtain ⟨a, _, hok⟩ := Res.bind_eq_ok.1 hok
  simp only at hok
  rw [cv hR.r.lo (lt_trans hR.r.lt hR.r.hi), cv hR.z.lo (lt_trans hR.z.lt hR.z.hi), cv hR.t.lo (lt_trans hR.t.lt hR.t.hi), cv (le_trans hR.r.lo hR.r.lt.le) hR.r.hi, cv (le_trans hR.z.lo hR.z.lt.le) hR.z.hi,
    cv (le_trans hR.t.lo hR.t.lt.le) hR.t.hi] at hok
  simp only [Res.ok_bind] at hok
  obtain ⟨r', g1, g2⟩ := hS st [⌊(toIndex G start).r⌋.toNat, ⌊(toIndex G start).z⌋.toNat, ⌊(toIndex G start).t⌋.toNat] [⌊(toIndex G stop).r⌋.toNat, ⌊(toIndex G stop).z⌋.toNat, ⌊(toIndex G stop).t⌋.toNat] hI rfl rfl
  rw [g1] at hok
  simp only [Res.ok_bind] at hok
  obtain ⟨q, hok, _⟩ := Res.bind_eq_ok.1 hok
  have hin : m ∈ r' := by
    rw [g2]
    refine ⟨hm, ?_⟩
    have n1 := Int.floor_nonneg.2 hR.r.lo
    have n2 := Int.floor_nonneg.2 hR.z.lo
    have n3 := Int.floor_nonneg.2 hR.t.lo
    unfold Searched at hse
    rw [← toIndex_r, ← toIndex_r, ← toIndex_z, ← toIndex_z, ← toIndex_t, ← toIndex_t] at hse
    intro d hd
    have : d < 3 := hd
    match d, this with
    | 0, _ => simp only [List.getD_cons_zero]; omega
    | 1, _ => simp only [List.getD_cons_zero, List.getD_cons_succ]; omega
    | 2, _ => simp only [List.getD_cons_zero, List.getD_cons_succ]; omega
  obtain ⟨a', b', hI', hbad⟩ := runLoop_turn (fun st : σ × List K => I st.1) _ (fun m' hm' a b ha hb => fillChunk_keeps hL ((g2 m').1 hm').1 ha hb) hI hok m hin
  have hM := hL.ok m hm
  have st0 := hM.getD_stop 0
  have st1 := hM.getD_stop 1
  have st2 := hM.getD_stop 2
  have hon := hcall.onSample.2 hcov
  have fx := onAxis_floor hon.1
  have fy := onAxis_floor hon.2.1
  have fz := onAxis_floor hon.2.2
  have hp := hk.support
  obtain ⟨a, ea⟩ := Int.eq_ofNat_of_zero_le (show 0 ≤ ⌊posR (toIndex G start) (toIndex G stop) num i⌋ - m.start.getD 0 0 + 2 * m.overlap by omega)
  obtain ⟨b, eb⟩ := Int.eq_ofNat_of_zero_le (show 0 ≤ ⌊posZ (toIndex G start) (toIndex G stop) num j⌋ - m.start.getD 1 0 + 2 * m.overlap by omega)
  obtain ⟨c, ec⟩ := Int.eq_ofNat_of_zero_le (show 0 ≤ ⌊posT (toIndex G start) (toIndex G stop) num k⌋ - m.start.getD 2 0 + 2 * m.overlap by omega)
  have bad := fillChunk_reads hL hk hR hm ⟨hse.1, hse.2.1, hse.2.2⟩ hsp hov hi hj hk' hon hI' hbad ea eb ec
  unfold Behind at hfar
  rw [← hcall.posR, ← hcall.posZ, ← hcall.posT] at hfar
  generalize posR (toIndex G start) (toIndex G stop) num i = px at *
  generalize posZ (toIndex G start) (toIndex G stop) num j = py at *
  generalize posT (toIndex G start) (toIndex G stop) num k = pt at *
  generalize e0 : m.shape.getD 0 0 + 2 * m.overlap = s0 at *
  generalize e1 : m.shape.getD 1 0 + 2 * m.overlap = s1 at *
  generalize e2 : m.shape.getD 2 0 + 2 * m.overlap = s2 at *
  rcases hfar with hfar | ⟨h1, hfar | ⟨h2, hfar⟩⟩
  · have : a = s0 := by rw [hfar, Int.floor_natCast] at ea; omega
    subst this
    have : a * s1 * s2 ≤ (a * s1 + b) * s2 := Nat.mul_le_mul_right _ (Nat.le_add_right _ _)
    omega
  · have h3 : a + 1 = s0 := by omega
    have h4 : b = s1 := by rw [hfar, Int.floor_natCast] at eb; omega
    subst h3 h4
    have : (a * b + b) * s2 = (a + 1) * b * s2 := by ring
    omega
  · have h3 : a + 1 = s0 := by omega
    have h4 : b + 1 = s1 := by omega
    have h5 : c = s2 := by rw [hfar, Int.floor_natCast] at ec; omega
    subst h3 h4 h5
    have : (a * (b + 1) + b) * c + c = (a + 1) * (b + 1) * c := by ring
    omega

end

end Verif.Green
