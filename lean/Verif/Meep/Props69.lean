import Verif.Meep.Serve
import Verif.Analytic.Props63
import Verif.Green.Props42
/-
C69: from a simulation with MEEP to the signals that its Green's function gives.
-/
set_option linter.unusedSectionVars false
namespace Verif.Meep
open Verif Verif.ND Verif.Dist Verif.Tree Verif.Ops Verif.Rebuild Verif.Green Verif.NullSup Verif.Bytes Verif.Analytic

/-! ### Specification -/

/-- The main loop ends and takes the samples `l`: the `k`-th one is the field after `l[k]` steps of the simulation. -/
def Samples (dt ts tEnd : ℝ) (l : List Nat) : Prop := ∃ bound, ∀ inner fuel, bound ≤ inner → bound ≤ fuel → timeLoop dt ts tEnd inner fuel 0 0 = .ok l

/-- The field at the samples, if `E n` is the field after `n` steps. -/
def sampled (E : Nat → List Nat → List Nat) (l : List Nat) : SimField := fun n x => E (l.getD n 0) x

/-! ### Proof -/

theorem samples_facts {dt ts tEnd : ℝ} (hdt : 0 < dt) (hts : 0 < ts) (h0 : 0 ≤ tEnd) {l : List Nat} (h : Samples dt ts tEnd l) : ((l.length - 1 : Nat) : ℝ) * ts ≤ tEnd ∧ tEnd < (l.length : ℝ) * ts := by
  obtain ⟨b, hb⟩ := h
  obtain ⟨l', b', h1, _, h3, h4, _⟩ := C58_times hdt hts h0
  have e1 := hb (max b b') (max b b') (le_max_left _ _) (le_max_left _ _)
  have e2 := h1 (max b b') (max b b') (le_max_right _ _) (le_max_right _ _)
  rw [e1] at e2
  cases e2
  exact ⟨h3, h4⟩

/-- Where the interpolation takes its values, for usable positions. -/
theorem meep_stencil {kn : Kern ℝ} (hk : IsKernel kn) {ds N z0 r0 dz dr nz nr pad : Nat} {p : Padded} (hD : DomOk 2 [nz, nr] [z0, r0] [dz, dr] ds) (hp : padDomain [nz, nr] [z0, r0] [dz, dr] ds pad = .ok p)
    (hsup : kn.support ≤ pad) (hr : r0 % ds = 0 ∨ pad * ds ≤ r0) (hdr : ds < dr) (hdz : ds < dz) (hN : 2 ≤ N) {x y t : ℝ} (hx : 0 ≤ x)
    (h : kn.support = 2 → 1 ≤ x ∨ (1 ≤ y ∧ y < (((dz + ds - 1) / ds - 1 : Nat) : ℝ) - 1) ∧ 1 ≤ t ∧ t < ((N - 1 : Nat) : ℝ) - 1) : StencilIn kn (KnownAt ds N z0 r0 p) x y t := by
  obtain ⟨r, e, l1, l2, l3, l4, h5, _⟩ := C55_padding hD pad
  rw [hp] at e
  cases e
  have hds := hD.pos
  have hfx := Int.floor_nonneg.2 hx
  intro a b c ha hb hc
  by_cases hi : 0 ≤ ⌊x⌋ - (kn.support - 1 : Int) + a
  · left
    have := Int.mul_nonneg (Int.natCast_nonneg ds) hi
    omega
  · have hs2 : kn.support = 2 := by
      cases hk with
      | linear =>
        have : (linear : Kern ℝ).support = 1 := rfl
        rw [this] at hi
        exact absurd (by omega) hi
      | keys => rfl
    rw [hs2] at hi hsup ha hb hc ⊢
    have hx1 : ⌊x⌋ = 0 ∧ a = 0 := by omega
    obtain ⟨e1, e2⟩ := hx1
    subst e2
    rw [e1]
    have ei : (0 : Int) - ((2 : Nat) - 1 : Int) + (0 : Nat) = -1 := by omega
    rw [ei]
    by_cases hge : ds ≤ r0
    · left; omega
    · have hr0 : r0 = 0 := by
        rcases hr with h0 | h0
        · rwa [Nat.mod_eq_of_lt (by omega)] at h0
        · have : 2 * ds ≤ pad * ds := Nat.mul_le_mul_right _ hsup
          omega
      subst hr0
      right
      rcases h hs2 with hc1 | ⟨⟨y1, y2⟩, t1, t2⟩
      · have : (1 : Int) ≤ ⌊x⌋ := Int.le_floor.2 (by simpa using hc1)
        omega
      · have q1 : (1 : Int) ≤ ⌊y⌋ := Int.le_floor.2 (by simpa using y1)
        have q2 : (1 : Int) ≤ ⌊t⌋ := Int.le_floor.2 (by simpa using t1)
        have q3 : ⌊y⌋ < (((dz + ds - 1) / ds - 1 : Nat) : Int) - 1 := Int.floor_lt.2 (by push_cast; exact_mod_cast y2)
        have q4 : ⌊t⌋ < ((N - 1 : Nat) : Int) - 1 := Int.floor_lt.2 (by push_cast; exact_mod_cast t2)
        obtain ⟨g0, _, g1, g2, _⟩ := h5 0 (by decide)
        obtain ⟨g0', _, g1', g2', _⟩ := h5 1 (by decide)
        simp only [List.getD_cons_zero, List.getD_cons_succ] at g1 g2 g1' g2'
        obtain ⟨c1, _⟩ := ceil_facts (m := dz) hds (by omega)
        have hj0 : 0 ≤ ⌊y⌋ - ((2 : Nat) - 1 : Int) + b := by omega
        have hj1 : ⌊y⌋ - ((2 : Nat) - 1 : Int) + b ≤ (((dz + ds - 1) / ds - 1 : Nat) : Int) := by omega
        generalize ⌊y⌋ - ((2 : Nat) - 1 : Int) + b = j at hj0 hj1 ⊢
        have k1 := Int.mul_nonneg (Int.natCast_nonneg ds) hj0
        have k2 := Int.mul_le_mul_of_nonneg_left hj1 (Int.natCast_nonneg ds)
        have k3 : ((ds * ((dz + ds - 1) / ds - 1) : Nat) : Int) < dz := by exact_mod_cast c1
        push_cast at k2 k3
        refine ⟨⟨by omega, ?_⟩, ⟨by omega, by omega⟩, by omega, by omega⟩
        omega

/-! ### The property -/

/-- All stages succeed, and what is loaded serves the sampled field; with both kinds of steps of the rechunking. -/
theorem meep_serves_any (C : Cfg) (hC : C.Ok) (hdims : C.dims = 3) (hvd : C.vd = 2) (hchunk : C.chunk = (outCfg C).chunk) (hj : ∀ k, C.junk k < 2 ^ 32) (S : Sorter) (Z : SlabSize) (fs : FS)
    {g : Geometry ℝ} {req : CylRegion ℝ} {res : ℝ} {nz nr : Nat} (hset : SetupOk g req res nz nr) {s : Storage ℝ} {z0 r0 dz dr : Nat} (hs : storageDomain g req res nz nr = .ok s) (hs1 : s.start = [z0, r0])
    (hs2 : s.shape = [dz, dr]) {dt ts tEnd : ℝ} (hdt : 0 < dt) (hts : 0 < ts) (htE : 0 ≤ tEnd) {l : List Nat} (hl : Samples dt ts tEnd l) (E : Nat → List Nat → List Nat)
    (T L ds : Nat) (p : Padded) (procs : List Proc) (init : List Nat) (proc chunk : Arr) (X : Rech) (hp : padDomain [nz, nr] s.start s.shape ds X.overlap = .ok p)
    (h : CalcOk (outCfg C) T L ds l.length [nz, nr] s.start s.shape p (sampled E l) X.indir fs procs) (hX : PipeOk C l.length [nz, nr] p X) {pts : Nat} (hpts : X.req = List.replicate 3 pts)
    (hr : r0 % ds = 0 ∨ X.overlap * ds ≤ r0) (hmany : ds < dr ∧ ds < dz ∧ 2 ≤ l.length) {gone : Nat → Bool} (hg : gone X.out = false) (enc : ℝ → Nat) (henc : ∀ x, enc x < 2 ^ 32) {val : Nat → ℝ}
    (hval : ∀ x, FloatIsZero x → val x = 0) :
    ∃ (st1 st2 : MState) (parts : List (List Nat × List Nat)) (K : Nat → Nat), runLoop (job (outCfg C) S T L (s.start.map fun _ => ds) l.length init proc chunk) (procs.map fun P => P.job p) ⟨none, fs⟩ = .ok st1 ∧
      mergeJobs (outCfg C) S init X.indir (procs.map fun P => P.out) st1 = .ok st2 ∧
      (∀ σ, Schedule X.jobs parts.length σ → ∃ s1, runLoop (procStep C S X) σ ⟨st2.fs, fun _ => none⟩ = .ok s1) ∧
      (∀ σ : List Nat, ∃ t, runLoop (fineStep C S X) σ ⟨st2.fs, fun _ => .fresh⟩ = .ok t ∧ ∀ j, K j ≤ σ.count j → (t.proc j).finished) ∧
      ∀ s1 τ, Reaches C S X parts.length st2.fs s1 → Finish X.jobs τ →
        ∃ s2, runLoop (finStep C S X parts (finalShape ds l.length s.shape)) τ s1 = .ok s2 ∧
          ∀ green, ∃ d' a b st, finishGreen C S enc gone X.out s.region tEnd ⟨s2.fs, green⟩ = .ok d' ∧ coordsOf s.region tEnd (finalShape ds l.length s.shape) = .ok (a, b, st) ∧
            (∀ e, e ≠ X.out → d'.green e = if gone e then none else green e) ∧ (∀ e f, d'.fs (e, f) = if gone e then none else s2.fs (e, f)) ∧
            ∀ n, ∃ (G : Lib) (gm : GFMeta) (I : Lib × FS → Prop) (ms : List Meta), load C S X.out n d' = .ok (G, gm) ∧ gm = ⟨a.map enc, b.map enc, st.map enc⟩ ∧ I (G, d'.fs) ∧
              Chunks ⟨(dr + ds - 1) / ds - 1, (dz + ds - 1) / ds - 1, l.length - 1, pts, X.overlap, true⟩ ms ∧
              Serves (libOf (readerCfg C n) val) I ms (meepField val (sampled E l) ds l.length z0 r0 p) (KnownAt ds l.length z0 r0 p) ∧ Searches (rangeLibOf (readerCfg C n) val) I ms ∧
              a.length = 3 ∧ b.length = 3 ∧ st.length = 3 ∧ st.getD 2 0 = tEnd / ((l.length : ℝ) - 1) := by
  obtain ⟨hm1, hm2, hm3⟩ := hmany
  have hsf := samples_facts hdt hts htE hl
  have hds := h.dom.pos
  have two : ∀ {m : Nat}, ds < m → 2 ≤ (m + ds - 1) / ds := fun {m} hm => by
    have := (Nat.le_div_iff_mul_le hds (x := 2) (y := m + ds - 1)).2 (by omega)
    exact this
  have hfs : finalShape ds l.length s.shape = [(dr + ds - 1) / ds, (dz + ds - 1) / ds, l.length] := by rw [hs2]; rfl
  obtain ⟨a, b, st, hco, ha, hb, hst3, _, _, _, _, hstpos, _⟩ := C58_coordinates_partial hset hts hds 0 s z0 r0 dz dr hs hs1 hs2 l.length _ _ hfs (two hm1) (two hm2) hm3 hsf.1 hsf.2
  have hst2 : st.getD 2 0 = tEnd / ((l.length : ℝ) - 1) := by
    rw [hfs] at hco
    unfold coordsOf at hco
    obtain ⟨u, _, hco⟩ := Res.bind_eq_ok.1 hco
    obtain ⟨v, _, hco⟩ := Res.bind_eq_ok.1 hco
    obtain ⟨w, hw, hco⟩ := Res.bind_eq_ok.1 hco
    have e := congrArg (fun q : List ℝ × List ℝ × List ℝ => q.2.2.getD 2 0) (Res.ok.inj hco)
    rw [← e]
    show w = _
    unfold fdiv at hw
    split at hw
    · cases hw
    · rw [← Res.ok.inj hw, sub_zero]; rfl
  obtain ⟨st1, st2, parts, K, a1, a2, p4, p5, a3⟩ := pipeline_field_any C hC hchunk hj S Z fs T L ds l.length [nz, nr] s.start s.shape p (sampled E l) procs init proc chunk X hp h (by omega) (by rw [hs1]; exact Nat.zero_lt_two) hX (by
    rw [hs1]; exact hr)
  refine ⟨st1, st2, parts, K, a1, a2, p4, p5, fun s1 τ hs' hτ => ?_⟩
  obtain ⟨s2, b2, hH, cs, ps, c1, c2, c3, c4, c5, c6, c7⟩ := a3 s1 τ hs' hτ
  refine ⟨s2, b2, fun green => ?_⟩
  obtain ⟨hsv, hfin⟩ := finish_core (S := S) hC (d := ⟨s2.fs, green⟩) hg c1 c2 c3 c4 c6 c5 (by rw [hfs, hdims]; rfl) enc hco Z
  refine ⟨_, a, b, st, hfin, hco, fun e he => by show upd _ _ _ e = _; unfold upd; rw [if_neg he]; rfl, fun e f => rfl, fun n => ?_⟩
  have hvm : ValidMeta ⟨a.map enc, b.map enc, st.map enc⟩ := by
    have hm : ∀ q : List ℝ, ∀ v ∈ q.map enc, v < 2 ^ 32 := fun q v hv => by
      obtain ⟨x, _, rfl⟩ := List.mem_map.1 hv
      exact henc _
    exact ⟨⟨by rw [ha]; rfl, hm _⟩, ⟨by rw [hb]; rfl, hm _⟩, ⟨by rw [List.length_map, hst3], hm _⟩⟩
  obtain ⟨G, g1, g2, g3⟩ := load_lib (S := S) (Z := Z) hC (green := upd (removeAll gone ⟨s2.fs, green⟩).green X.out (some ((gfMeta C.hst).ser ⟨a.map enc, b.map enc, st.map enc⟩))) hsv c2 c3 c4 c6 hvm (by
    unfold upd; rw [if_pos rfl]) n
  have hpl : p.start.length = 2 ∧ p.shape.length = 2 := by
    obtain ⟨r, e, l1, l2, l3, l4, _⟩ := C55_padding h.dom X.overlap
    rw [hp] at e
    cases e
    rw [hs1] at l3 l4
    exact ⟨l3, l4⟩
  rw [hs1] at hH
  obtain ⟨hbox, hparts⟩ := holds_parts (F := sampled E l) hC hdims hvd hval hpl c1 c3 c2 c7 hH Z
  rw [hfs, hpts] at hbox
  have hch : Chunks ⟨(dr + ds - 1) / ds - 1, (dz + ds - 1) / ds - 1, l.length - 1, pts, X.overlap, true⟩ (cs.map Prod.fst) := by
    have e1 := two hm1
    have e2 := two hm2
    have f1 : (dr + ds - 1) / ds - 1 + 1 = (dr + ds - 1) / ds := by omega
    have f2 : (dz + ds - 1) / ds - 1 + 1 = (dz + ds - 1) / ds := by omega
    have f3 : l.length - 1 + 1 = l.length := by omega
    refine ⟨?_, fun x y w => ?_, fun m hm => ?_, fun m hm m' hm' he => ?_, fun hf => (by cases hf), fun m hm => ?_⟩
    · have := (hX.req 0 (by omega)).1
      rw [hpts] at this
      exact this
    · have hc := c7 [x, y, w]
      rw [hfs, hdims, box3 rfl rfl] at hc
      have e3 : (∃ m ∈ cs.map Prod.fst, InBox m.start m.stop [x, y, w]) ↔ Covered ps [x, y, w] := by
        constructor
        · rintro ⟨m, hm, hi⟩
          obtain ⟨q, hq, rfl⟩ := List.mem_map.1 hm
          obtain ⟨pc, hpc, hrep⟩ := c2.leftMem hq
          exact ⟨pc, hpc, by rw [← hrep.start, ← hrep.stop]; exact hi⟩
        · rintro ⟨pc, hpc, hi⟩
          obtain ⟨q, hq, hrep⟩ := c2.rightMem hpc
          exact ⟨q.1, List.mem_map_of_mem hq, by rw [hrep.start, hrep.stop]; exact hi⟩
      rw [e3, ← hc]
      show _ ↔ x ≤ (dr + ds - 1) / ds - 1 ∧ y ≤ (dz + ds - 1) / ds - 1 ∧ w ≤ l.length - 1
      constructor
      · rintro ⟨x', y', w', e, ⟨_, i1⟩, ⟨_, i2⟩, _, i3⟩
        simp only [List.cons.injEq, and_true] at e
        obtain ⟨rfl, rfl, rfl⟩ := e
        replace i1 : x < (dr + ds - 1) / ds := i1
        replace i2 : y < (dz + ds - 1) / ds := i2
        replace i3 : w < l.length := i3
        omega
      · rintro ⟨i1, i2, i3⟩
        exact ⟨x, y, w, rfl, ⟨Nat.zero_le _, by show x < (dr + ds - 1) / ds; omega⟩, ⟨Nat.zero_le _, by show y < (dz + ds - 1) / ds; omega⟩, Nat.zero_le _, by show w < l.length; omega⟩
    · obtain ⟨c, hc, rfl⟩ := List.mem_map.1 hm
      show BoxOK _ [(dr + ds - 1) / ds - 1 + 1, (dz + ds - 1) / ds - 1 + 1, l.length - 1 + 1] _ _ _
      rw [f1, f2, f3]
      exact (hbox c hc).1
    · obtain ⟨c, hc, rfl⟩ := List.mem_map.1 hm
      obtain ⟨c', hc', rfl⟩ := List.mem_map.1 hm'
      rw [chunk_uniq g3.chunky hc hc' he]
    · obtain ⟨c, hc, rfl⟩ := List.mem_map.1 hm
      exact (hbox c hc).2
  have hne : cs ≠ [] := fun e => by
    obtain ⟨m, hm, _⟩ := (hch.cover 0 0 0).2 ⟨Nat.zero_le _, Nat.zero_le _, Nat.zero_le _⟩
    rw [e] at hm; cases hm
  have hserve := serves_clean (lib_serves (withSize_ok hC n) hdims hvd hval hne hparts (s0 := (G, _)) g3) (readerCfg C n).chunk
  exact ⟨G, _, _, cs.map Prod.fst, g1, rfl, ⟨g3, g2⟩, hch, hserve, fun s lo hi hs' hlo hhi => rangeLib_searches (withSize_ok hC n) hdims val cs s lo hi hs'.1 hlo hhi, by rw [ha]; rfl, by rw [hb]; rfl, hst3, hst2⟩

/-- All stages succeed, and what is loaded serves the sampled field. -/
theorem meep_serves (C : Cfg) (hC : C.Ok) (hdims : C.dims = 3) (hvd : C.vd = 2) (hchunk : C.chunk = (outCfg C).chunk) (hj : ∀ k, C.junk k < 2 ^ 32) (S : Sorter) (Z : SlabSize) (fs : FS)
    {g : Geometry ℝ} {req : CylRegion ℝ} {res : ℝ} {nz nr : Nat} (hset : SetupOk g req res nz nr) {s : Storage ℝ} {z0 r0 dz dr : Nat} (hs : storageDomain g req res nz nr = .ok s) (hs1 : s.start = [z0, r0])
    (hs2 : s.shape = [dz, dr]) {dt ts tEnd : ℝ} (hdt : 0 < dt) (hts : 0 < ts) (htE : 0 ≤ tEnd) {l : List Nat} (hl : Samples dt ts tEnd l) (E : Nat → List Nat → List Nat)
    (T L ds : Nat) (p : Padded) (procs : List Proc) (init : List Nat) (proc chunk : Arr) (X : Rech) (hp : padDomain [nz, nr] s.start s.shape ds X.overlap = .ok p)
    (h : CalcOk (outCfg C) T L ds l.length [nz, nr] s.start s.shape p (sampled E l) X.indir fs procs) (hX : PipeOk C l.length [nz, nr] p X) {pts : Nat} (hpts : X.req = List.replicate 3 pts)
    (hr : r0 % ds = 0 ∨ X.overlap * ds ≤ r0) (hmany : ds < dr ∧ ds < dz ∧ 2 ≤ l.length) {gone : Nat → Bool} (hg : gone X.out = false) (enc : ℝ → Nat) (henc : ∀ x, enc x < 2 ^ 32) {val : Nat → ℝ}
    (hval : ∀ x, FloatIsZero x → val x = 0) :
    ∃ st1 st2 parts, runLoop (job (outCfg C) S T L (s.start.map fun _ => ds) l.length init proc chunk) (procs.map fun P => P.job p) ⟨none, fs⟩ = .ok st1 ∧
      mergeJobs (outCfg C) S init X.indir (procs.map fun P => P.out) st1 = .ok st2 ∧
      ∀ σ τ, Schedule X.jobs parts.length σ → Finish X.jobs τ →
        ∃ s1 s2, runLoop (procStep C S X) σ ⟨st2.fs, fun _ => none⟩ = .ok s1 ∧ runLoop (finStep C S X parts (finalShape ds l.length s.shape)) τ s1 = .ok s2 ∧
          ∀ green, ∃ d' a b st, finishGreen C S enc gone X.out s.region tEnd ⟨s2.fs, green⟩ = .ok d' ∧ coordsOf s.region tEnd (finalShape ds l.length s.shape) = .ok (a, b, st) ∧
            (∀ e, e ≠ X.out → d'.green e = if gone e then none else green e) ∧ (∀ e f, d'.fs (e, f) = if gone e then none else s2.fs (e, f)) ∧
            ∀ n, ∃ (G : Lib) (gm : GFMeta) (I : Lib × FS → Prop) (ms : List Meta), load C S X.out n d' = .ok (G, gm) ∧ gm = ⟨a.map enc, b.map enc, st.map enc⟩ ∧ I (G, d'.fs) ∧
              Chunks ⟨(dr + ds - 1) / ds - 1, (dz + ds - 1) / ds - 1, l.length - 1, pts, X.overlap, true⟩ ms ∧
              Serves (libOf (readerCfg C n) val) I ms (meepField val (sampled E l) ds l.length z0 r0 p) (KnownAt ds l.length z0 r0 p) ∧ Searches (rangeLibOf (readerCfg C n) val) I ms ∧
              a.length = 3 ∧ b.length = 3 ∧ st.length = 3 ∧ st.getD 2 0 = tEnd / ((l.length : ℝ) - 1) := by
  obtain ⟨st1, st2, parts, _, a1, a2, p4, _, p3⟩ := meep_serves_any C hC hdims hvd hchunk hj S Z fs hset hs hs1 hs2 hdt hts htE hl E T L ds p procs init proc chunk X hp h hX hpts hr hmany hg enc henc hval
  refine ⟨st1, st2, parts, a1, a2, fun σ τ hσ hτ => ?_⟩
  obtain ⟨s1, b1⟩ := p4 σ hσ
  obtain ⟨s2, r⟩ := p3 s1 τ (Or.inl ⟨σ, hσ, b1⟩) hτ
  exact ⟨s1, s2, b1, r⟩

/-- **C69** with both kinds of steps of the rechunking: the states at the barrier (`Reaches`) are those that are reached by uninterrupted partitions in any order, or by the processes making single chunks
    of their partitions in any order (C44_any_interleaving).  No step fails, each process gets to the barrier after a number of steps that does not depend on the others, and from every such state
    the rest succeeds and the signals are those of the simulated field.  (What is missing is said at `C69_meep_signal_partial`.) -/
theorem C69_any_interleaving_partial (C : Cfg) (hC : C.Ok) (hdims : C.dims = 3) (hvd : C.vd = 2) (hchunk : C.chunk = (outCfg C).chunk) (hj : ∀ k, C.junk k < 2 ^ 32) (S : Sorter) (Z : SlabSize) (fs : FS)
    {g : Geometry ℝ} {req : CylRegion ℝ} {res : ℝ} {nz nr : Nat} (hset : SetupOk g req res nz nr) {s : Storage ℝ} {z0 r0 dz dr : Nat} (hs : storageDomain g req res nz nr = .ok s) (hs1 : s.start = [z0, r0])
    (hs2 : s.shape = [dz, dr]) {dt ts tEnd : ℝ} (hdt : 0 < dt) (hts : 0 < ts) (htE : 0 ≤ tEnd) {l : List Nat} (hl : Samples dt ts tEnd l) (E : Nat → List Nat → List Nat)
    (T L ds : Nat) (p : Padded) (procs : List Proc) (init : List Nat) (proc chunk : Arr) (X : Rech) (hp : padDomain [nz, nr] s.start s.shape ds X.overlap = .ok p)
    (h : CalcOk (outCfg C) T L ds l.length [nz, nr] s.start s.shape p (sampled E l) X.indir fs procs) (hX : PipeOk C l.length [nz, nr] p X) {pts : Nat} (hpts : X.req = List.replicate 3 pts)
    (hr : r0 % ds = 0 ∨ X.overlap * ds ≤ r0) (hmany : ds < dr ∧ ds < dz ∧ 2 ≤ l.length) {gone : Nat → Bool} (hg : gone X.out = false) (enc : ℝ → Nat) (henc : ∀ x, enc x < 2 ^ 32) {val : Nat → ℝ}
    (hval : ∀ x, FloatIsZero x → val x = 0) (hstep : 0 < val (enc (tEnd / ((l.length : ℝ) - 1)))) :
    ∃ (st1 st2 : MState) (parts : List (List Nat × List Nat)) (K : Nat → Nat), runLoop (job (outCfg C) S T L (s.start.map fun _ => ds) l.length init proc chunk) (procs.map fun P => P.job p) ⟨none, fs⟩ = .ok st1 ∧
      mergeJobs (outCfg C) S init X.indir (procs.map fun P => P.out) st1 = .ok st2 ∧
      (∀ σ, Schedule X.jobs parts.length σ → ∃ s1, runLoop (procStep C S X) σ ⟨st2.fs, fun _ => none⟩ = .ok s1) ∧
      (∀ σ : List Nat, ∃ t, runLoop (fineStep C S X) σ ⟨st2.fs, fun _ => .fresh⟩ = .ok t ∧ ∀ j, K j ≤ σ.count j → (t.proc j).finished) ∧
      ∀ s1 τ, Reaches C S X parts.length st2.fs s1 → Finish X.jobs τ →
        ∃ s2, runLoop (finStep C S X parts (finalShape ds l.length s.shape)) τ s1 = .ok s2 ∧
          ∀ green, ∃ d' a b st, finishGreen C S enc gone X.out s.region tEnd ⟨s2.fs, green⟩ = .ok d' ∧ coordsOf s.region tEnd (finalShape ds l.length s.shape) = .ok (a, b, st) ∧
            (∀ e, e ≠ X.out → d'.green e = if gone e then none else green e) ∧ (∀ e f, d'.fs (e, f) = if gone e then none else s2.fs (e, f)) ∧
            ∀ n, ∃ (G : Lib) (gm : GFMeta) (I : Lib × FS → Prop), load C S X.out n d' = .ok (G, gm) ∧ gm = ⟨a.map enc, b.map enc, st.map enc⟩ ∧ I (G, d'.fs) ∧
              ∀ kn, IsKernel kn → kn.support ≤ X.overlap → Answers (libOf (readerCfg C n) val) I (gmetaOf val gm) kn (meepField val (sampled E l) ds l.length z0 r0 p)
                ⟨(dr + ds - 1) / ds - 1, (dz + ds - 1) / ds - 1, l.length - 1, pts, X.overlap, true⟩ := by
  obtain ⟨hm1, hm2, hm3⟩ := hmany
  obtain ⟨st1, st2, parts, K, a1, a2, p4, p5, a3⟩ := meep_serves_any C hC hdims hvd hchunk hj S Z fs hset hs hs1 hs2 hdt hts htE hl E T L ds p procs init proc chunk X hp h hX hpts hr ⟨hm1, hm2, hm3⟩ hg enc henc hval
  refine ⟨st1, st2, parts, K, a1, a2, p4, p5, fun s1 τ hs' hτ => ?_⟩
  obtain ⟨s2, b2, b3⟩ := a3 s1 τ hs' hτ
  refine ⟨s2, b2, fun green => ?_⟩
  obtain ⟨d', a, b, st, c1, c2, c3, c4, c5⟩ := b3 green
  refine ⟨d', a, b, st, c1, c2, c3, c4, fun n => ?_⟩
  obtain ⟨G, gm, I, ms, g1, g2, g3, hch, hserve, _, _, _, hst3, hst2⟩ := c5 n
  have hds := h.dom.pos
  subst g2
  refine ⟨G, _, I, g1, rfl, g3, fun kn hk hsup => answers hch hserve hk hsup ?_ _ ?_ ?_ ?_⟩
  · have k := h.dom.le
    rw [hs1, hs2] at k
    have k0 := k 0 (Nat.zero_lt_two)
    have k1 := k 1 (Nat.one_lt_two)
    simp only [List.getD_cons_zero, List.getD_cons_succ] at k0 k1
    have i0 := hX.int.1 0 Nat.zero_lt_two
    have i1 := hX.int.1 1 Nat.one_lt_two
    simp only [List.getD_cons_zero, List.getD_cons_succ] at i0 i1
    have i2 := hX.int.2
    have q1 := ceil_small hds (a := dr)
    have q2 := ceil_small hds (a := dz)
    show (dr + ds - 1) / ds - 1 < _ ∧ (dz + ds - 1) / ds - 1 < _ ∧ l.length - 1 < _
    omega
  · show 0 < val ((st.map enc).getD 2 0)
    have : (st.map enc).getD 2 0 = enc (st.getD 2 0) := by
      rw [List.getD_eq_getElem?_getD, List.getElem?_map, List.getD_eq_getElem?_getD, List.getElem?_eq_getElem (by rw [hst3]; decide)]
      rfl
    rw [this, hst2]
    exact hstep
  · intro i j k hi
    left
    have := Int.mul_nonneg (Int.natCast_nonneg ds) hi
    omega
  · intro x y t hx _ _ hu
    refine meep_stencil (nz := nz) (nr := nr) hk ?_ (pad := X.overlap) ?_ hsup hr hm1 hm2 hm3 hx hu.2
    · have := h.dom
      rwa [hs1, hs2] at this
    · rwa [hs1, hs2] at hp

/-- **C69.** From the simulation to the signals. Let `E n` be the field after `n` steps of the simulation, let `s` be the storage domain that is chosen for the request, with more than one sample along each axis,
    let `l` be the samples in time, let the simulation chunks of all processes divide the simulated domain, and let all buffers hold the field at the sample.
    Then for every schedule of the processes all four stages of the calculation succeed (the calculation of the parts, the merging, the rechunking, and the creation of the Green's function) and the result can be
    loaded with a cache of any size; its coordinates are the rounded ones of C58. The scratch directories (`gone`) are removed and all others stay as they are. In any sequence of requests, every request for inner products and for the signal of a moving charge (with the linear kernel, and if
    there is enough overlap with the cubic one) is answered according to the simulated field at the samples in space and time, mirrored at the axis (`meepField`).
    Missing: rounding in the calculations themselves; storage domains that start next to the axis and not at a multiple of the downsampling factor (`hr`, without it the mirror image is wrong:
    `C60_axis_fails`); the positions that are excluded in `Usable` and the pairs of samples that are excluded in `Apart` (for which the program is wrong: `C37_over_read`, `C32_corner_padding_is_stale`, C38);
    coordinates that are exact (`C58_stretched`). -/
theorem C69_meep_signal_partial (C : Cfg) (hC : C.Ok) (hdims : C.dims = 3) (hvd : C.vd = 2) (hchunk : C.chunk = (outCfg C).chunk) (hj : ∀ k, C.junk k < 2 ^ 32) (S : Sorter) (Z : SlabSize) (fs : FS)
    {g : Geometry ℝ} {req : CylRegion ℝ} {res : ℝ} {nz nr : Nat} (hset : SetupOk g req res nz nr) {s : Storage ℝ} {z0 r0 dz dr : Nat} (hs : storageDomain g req res nz nr = .ok s) (hs1 : s.start = [z0, r0])
    (hs2 : s.shape = [dz, dr]) {dt ts tEnd : ℝ} (hdt : 0 < dt) (hts : 0 < ts) (htE : 0 ≤ tEnd) {l : List Nat} (hl : Samples dt ts tEnd l) (E : Nat → List Nat → List Nat)
    (T L ds : Nat) (p : Padded) (procs : List Proc) (init : List Nat) (proc chunk : Arr) (X : Rech) (hp : padDomain [nz, nr] s.start s.shape ds X.overlap = .ok p)
    (h : CalcOk (outCfg C) T L ds l.length [nz, nr] s.start s.shape p (sampled E l) X.indir fs procs) (hX : PipeOk C l.length [nz, nr] p X) {pts : Nat} (hpts : X.req = List.replicate 3 pts)
    (hr : r0 % ds = 0 ∨ X.overlap * ds ≤ r0) (hmany : ds < dr ∧ ds < dz ∧ 2 ≤ l.length) {gone : Nat → Bool} (hg : gone X.out = false) (enc : ℝ → Nat) (henc : ∀ x, enc x < 2 ^ 32) {val : Nat → ℝ}
    (hval : ∀ x, FloatIsZero x → val x = 0) (hstep : 0 < val (enc (tEnd / ((l.length : ℝ) - 1)))) :
    ∃ st1 st2 parts, runLoop (job (outCfg C) S T L (s.start.map fun _ => ds) l.length init proc chunk) (procs.map fun P => P.job p) ⟨none, fs⟩ = .ok st1 ∧
      mergeJobs (outCfg C) S init X.indir (procs.map fun P => P.out) st1 = .ok st2 ∧
      ∀ σ τ, Schedule X.jobs parts.length σ → Finish X.jobs τ →
        ∃ s1 s2, runLoop (procStep C S X) σ ⟨st2.fs, fun _ => none⟩ = .ok s1 ∧ runLoop (finStep C S X parts (finalShape ds l.length s.shape)) τ s1 = .ok s2 ∧
          ∀ green, ∃ d' a b st, finishGreen C S enc gone X.out s.region tEnd ⟨s2.fs, green⟩ = .ok d' ∧ coordsOf s.region tEnd (finalShape ds l.length s.shape) = .ok (a, b, st) ∧
            (∀ e, e ≠ X.out → d'.green e = if gone e then none else green e) ∧ (∀ e f, d'.fs (e, f) = if gone e then none else s2.fs (e, f)) ∧
            ∀ n, ∃ (G : Lib) (gm : GFMeta) (I : Lib × FS → Prop), load C S X.out n d' = .ok (G, gm) ∧ gm = ⟨a.map enc, b.map enc, st.map enc⟩ ∧ I (G, d'.fs) ∧
              ∀ kn, IsKernel kn → kn.support ≤ X.overlap → Answers (libOf (readerCfg C n) val) I (gmetaOf val gm) kn (meepField val (sampled E l) ds l.length z0 r0 p)
                ⟨(dr + ds - 1) / ds - 1, (dz + ds - 1) / ds - 1, l.length - 1, pts, X.overlap, true⟩ := by
  obtain ⟨st1, st2, parts, _, a1, a2, p4, _, p3⟩ := C69_any_interleaving_partial C hC hdims hvd hchunk hj S Z fs hset hs hs1 hs2 hdt hts htE hl E T L ds p procs init proc chunk X hp h hX hpts hr hmany hg enc henc
    hval hstep
  refine ⟨st1, st2, parts, a1, a2, fun σ τ hσ hτ => ?_⟩
  obtain ⟨s1, b1⟩ := p4 σ hσ
  obtain ⟨s2, r⟩ := p3 s1 τ (Or.inl ⟨σ, hσ, b1⟩) hτ
  exact ⟨s1, s2, b1, r⟩

/-- **C69**, at the grid points: the inner product with the unit vector `c` at a grid point and the time of a sample is the simulated field, component `c`, at this sample and the corresponding cell. -/
theorem C69_grid_point {ds z0 r0 dz dr nz nr pad : Nat} {p : Padded} (hD : DomOk 2 [nz, nr] [z0, r0] [dz, dr] ds) (hp : padDomain [nz, nr] [z0, r0] [dz, dr] ds pad = .ok p) (E : Nat → List Nat → List Nat)
    (l : List Nat) (val : Nat → ℝ) (G : GMeta ℝ) (hG : 0 < G.dr ∧ 0 < G.dz ∧ 0 < G.dt) {kn : Kern ℝ} (hk : IsKernel kn) (c : Nat) {i j k : Nat} (hi : ds * i < dr) (hj : ds * j < dz) (hk' : k < l.length) :
    greenAt G kn (meepField val (sampled E l) ds l.length z0 r0 p) c (G.r0 + i * G.dr) (G.z0 + j * G.dz) (G.t0 + k * G.dt) = val ((E (l.getD k 0) [z0 + ds * j, r0 + ds * i]).getD c 0) := by
  obtain ⟨r, e, l1, l2, l3, l4, h5, _⟩ := C55_padding hD pad
  rw [hp] at e
  cases e
  have e : ∀ {a b : ℝ} {n : Nat}, 0 < b → (a + n * b - a) / b = ((n : Int) : ℝ) := fun {a b n} hb => by
    have := hb.ne'
    rw [Int.cast_natCast]
    field_simp
    ring
  unfold greenAt GMeta.x GMeta.y GMeta.t
  rw [e hG.1, e hG.2.1, e hG.2.2, C36_reproduces_samples kn hk]
  obtain ⟨_, _, g1, g2, _⟩ := h5 0 (by decide)
  obtain ⟨_, _, g1', g2', _⟩ := h5 1 (by decide)
  simp only [List.getD_cons_zero, List.getD_cons_succ] at g1 g2 g1' g2'
  have q1 : (r0 + ds * (i : Int) : Int) = ((r0 + ds * i : Nat) : Int) := by push_cast; rfl
  have q2 : (z0 + ds * (j : Int) : Int) = ((z0 + ds * j : Nat) : Int) := by push_cast; rfl
  unfold meepField
  rw [q1, q2, abs_of_nonneg (Int.natCast_nonneg _), if_pos, Int.toNat_natCast, Int.toNat_natCast, Int.toNat_natCast]
  · rfl
  · refine ⟨⟨by omega, by omega⟩, ⟨by omega, by omega⟩, by omega, by omega⟩

/-! ### The hypotheses can be met -/

namespace Ex69

/-- A geometry of 7 by 6 cells, of which 5 by 4 are requested, from the axis on. -/
noncomputable def geom : Geometry ℝ := ⟨7, 0, 6⟩
noncomputable def request : CylRegion ℝ := ⟨0, 5, 1, 5⟩

theorem setup : SetupOk geom request 1 6 7 := ⟨by norm_num, by norm_num [geom, request], by norm_num [geom, request], by norm_num [geom], by norm_num⟩

theorem stored : ∃ s : Storage ℝ, storageDomain geom request 1 6 7 = .ok s ∧ s.start = [1, 0] ∧ s.shape = [4, 5] := by
  obtain ⟨s, h1, z0, r0, dz, dr, h2, h3, _, _, hz, hr⟩ := storage_ok setup
  have a1 := hz.start
  have a2 := hz.count
  have a3 := hr.start
  have a4 := hr.count
  simp only [geom, request] at a1 a2 a3 a4
  have k : ∀ {n : Nat} {x : ℝ} (m : Nat), (n : ℝ) ≤ x → x < n + 1 → x = m → n = m := fun {n x} m b1 b2 b3 => by
    rw [b3] at b1 b2
    have d1 : n ≤ m := by exact_mod_cast b1
    have d2 : m < n + 1 := by exact_mod_cast b2
    omega
  have b1 : z0 = 1 := k 1 a1.1 a1.2 (by norm_num)
  have b2 : dz = 4 := k 4 a2.1 a2.2 (by norm_num)
  have b3 : r0 = 0 := k 0 a3.1 a3.2 (by norm_num)
  have b4 : dr = 5 := k 5 a4.1 a4.2 (by norm_num)
  exact ⟨s, h1, by rw [h2, b1, b3], by rw [h3, b2, b4]⟩

/-- Two samples. -/
theorem samples : Samples 1 1 1 [0, 1] := by
  obtain ⟨l, b, h1, h2, h3, h4, h5⟩ := C58_times (K := ℝ) (dt := 1) (ts := 1) (tEnd := 1) one_pos one_pos zero_le_one
  refine ⟨b, fun inner fuel hi hf => ?_⟩
  rw [h1 inner fuel hi hf]
  rw [mul_one] at h3 h4
  have a1 : l.length - 1 ≤ 1 := by exact_mod_cast h3
  have a2 : 1 < l.length := by exact_mod_cast h4
  have val : ∀ k < l.length, l.getD k 0 = k := fun k hk => by
    obtain ⟨c1, c2, _⟩ := h5 k hk
    rw [mul_one, mul_one] at c1 c2
    have d1 : k ≤ l.getD k 0 := by exact_mod_cast c1
    have d2 : l.getD k 0 < k + 1 := by exact_mod_cast c2
    omega
  have v0 := val 0 (by omega)
  have v1 := val 1 (by omega)
  have hl : l.length = 2 := by omega
  match l, hl with
  | [x, y], _ =>
    have v0 : x = 0 := v0
    have v1 : y = 1 := v1
    rw [v0, v1]

/-- With an overlap of 2 there is padding at the other sides, but none at the axis. -/
def pd : Padded := ⟨[1, 0], [1, 2], [0, 0], [6, 7]⟩

theorem padded : padDomain [6, 7] [1, 0] [4, 5] 1 2 = .ok pd := by
  have h : (match padDomain [6, 7] [1, 0] [4, 5] 1 2 with
    | .ok r => decide (r.pre = [1, 0] ∧ r.post = [1, 2] ∧ r.start = [0, 0] ∧ r.shape = [6, 7])
    | _ => false) = true := by decide +kernel
  revert h
  cases padDomain [6, 7] [1, 0] [4, 5] 1 2 with
  | ok r =>
    obtain ⟨a, b, c, d⟩ := r
    intro h
    have h := of_decide_eq_true h
    simp only at h
    obtain ⟨rfl, rfl, rfl, rfl⟩ := h
    rfl
  | _ => intro h; cases h

/-- A single simulation chunk. -/
def part : SimChunk := ⟨[0, 0], [6, 7]⟩
def buffer (n : Nat) : List Nat := (elemLoop [0, 0] [6, 7]).flatMap fun k => sampled Ex57.F [0, 1] n k
def P : Proc := ⟨1, 2, fun n r b => [n, r, b], [part], fun n _ => buffer n⟩

theorem part_eq : (P.job pd).cs = [part] := by
  have h : ((P.job pd).cs.map fun c => (c.start, c.shape)) = [part].map fun c => (c.start, c.shape) := by decide +kernel
  exact List.map_injective_iff.2 (fun a b e => by cases a; cases b; simp at e; simp [e]) h

theorem data_ok : ∀ n < 2, (buffer n).length = volume 2 (1 :: part.shape) ∧ (∀ w ∈ buffer n, w < 2 ^ 32) ∧
    ∀ k, ValidInd part.shape k → read 2 (mkHdr 2 (1 :: part.shape)) (buffer n) (0 :: k) = .ok (sampled Ex57.F [0, 1] n (addVec pd.start (addVec part.start k))) := by
  have h : ∀ n < 2, (buffer n).length = volume 2 (1 :: part.shape) ∧ (∀ w ∈ buffer n, w < 2 ^ 32) ∧
      ∀ k ∈ elemLoop (part.shape.map fun _ => 0) part.shape, (match read 2 (mkHdr 2 (1 :: part.shape)) (buffer n) (0 :: k) with
        | .ok v => decide (v = sampled Ex57.F [0, 1] n (addVec pd.start (addVec part.start k)))
        | _ => false) = true := by decide +kernel
  intro n hn
  obtain ⟨h1, h2, h3⟩ := h n hn
  refine ⟨h1, h2, fun k hk => ?_⟩
  have h4 := h3 k (mem_elemLoop.2 (inBox_zero_iff.2 hk))
  revert h4
  cases read 2 (mkHdr 2 (1 :: part.shape)) (buffer n) (0 :: k) with
  | ok v => intro h4; rw [of_decide_eq_true h4]
  | _ => intro h4; cases h4

theorem ok : CalcOk (outCfg Ex60.cfg) 2 2 1 2 [6, 7] [1, 0] [4, 5] pd (sampled Ex57.F [0, 1]) 0 (fun _ => none) [P] := by
  have one : ∀ {Q : Proc → Prop}, Q P → ∀ P' ∈ [P], Q P' := fun h P' hP => by rw [List.mem_singleton] at hP; rw [hP]; exact h
  refine ⟨rfl, rfl, by decide, by decide, ⟨⟨rfl, rfl, rfl⟩, by decide, by decide, by decide, by decide⟩, by decide, List.pairwise_singleton _ _, ?_, ?_, by decide, ?_, ?_, List.pairwise_singleton _ _,
    List.pairwise_singleton _ _, by decide, fun _ _ _ => ⟨rfl, rfl⟩, fun _ => rfl, by decide, by decide⟩
  · intro i hi
    exact ⟨P, List.mem_singleton_self _, part, List.mem_singleton_self _, inBox_zero_iff (s := [6, 7]).2 hi⟩
  · refine one fun n hn r c hr => ?_
    rw [part_eq] at hr
    rcases r with _ | r
    · simp at hr
      subst hr
      exact data_ok n hn
    · simp at hr
  · exact one fun n r b => ⟨by simp [P], by simp [P]⟩
  · exact one fun n r b n' r' b' e => by simpa [P] using e

/-- Rechunking by two processes into chunks of 2 x 2 x 2 elements with overlap 2. -/
def X : Rech := ⟨0, 9, fun n => n + 10, 2, [2, 2, 2], 2, [0, 1, 0], [2, 1, 0], fun n k => [n, k], fun a b => (a + b - 1) / b, 1⟩

theorem pipe : PipeOk Ex60.cfg 2 [6, 7] pd X := by
  refine ⟨by decide, by decide, ⟨fun d hd => ?_, by simp [X]⟩, rfl, Ex60.lt3 (by simp [X]) (by simp [X]) (by simp [X]), fun sh hl hle => ?_, fun n k => ⟨by simp [X], by simp [X]⟩, fun n k n' k' e => ?_,
    fun n => ⟨by simp [X], ?_, fun m e => ?_⟩, by simp [X], by simp [X], ceilDiv_rounds, by simp [X]⟩
  · rcases d with _ | _ | d
    · simp [X]
    · simp [X]
    · exact absurd hd (by show ¬ d + 2 < 2; omega)
  · replace hl : sh.length = 3 := hl
    replace hle : ∀ d < 3, sh.getD d 0 ≤ [2, 2, 2].getD d 0 + 4 := hle
    match sh, hl with
    | [a, b, c], _ =>
      have h0 : a ≤ 6 := hle 0 (by decide)
      have h1 : b ≤ 6 := hle 1 (by decide)
      have h2 : c ≤ 6 := hle 2 (by decide)
      have h3 : b * c ≤ 6 * 6 := Nat.mul_le_mul h1 h2
      have h4 : a * (b * c * 2) ≤ 6 * (6 * 6 * 2) := Nat.mul_le_mul h0 (Nat.mul_le_mul_right 2 h3)
      refine ⟨rfl, ?_, ?_, ?_⟩
      · intro x hx
        simp only [List.mem_cons, List.not_mem_nil, or_false] at hx
        omega
      · show volume 2 [a, b, c] < 2 ^ 62
        rw [volume_cons]
        simp only [prod, Nat.mul_one]; omega
      · show numElems [b, c] < 2 ^ 32
        simp only [numElems_eq, prod, Nat.mul_one]; omega
  · have e : [n, k] = [n', k'] := e
    injection e with e1 e2
    injection e2 with e2 _
    exact ⟨e1, e2⟩
  · show n + 10 ≠ 9
    omega
  · have e : n + 10 = m + 10 := e
    omega

/-- A format with the integers up to 100; only the directory of the result is kept. -/
noncomputable def enc (x : ℝ) : Nat := min ⌊x⌋₊ 100
noncomputable def val (w : Nat) : ℝ := if w = 2 ^ 31 then 0 else w

/-- All four stages, for every schedule; both kernels. -/
theorem result : ∃ s st1 st2 parts, storageDomain geom request 1 6 7 = .ok s ∧ runLoop (job (outCfg Ex60.cfg) Tree.Ex.S 2 2 [1, 1] 2 [1, 1, 1] ⟨[], []⟩ ⟨[], []⟩) ([P].map fun P => P.job pd) ⟨none, fun _ => none⟩ = .ok st1 ∧
      mergeJobs (outCfg Ex60.cfg) Tree.Ex.S [1, 1, 1] 0 ([P].map fun P => P.out) st1 = .ok st2 ∧
      ∀ σ τ, Schedule 2 parts.length σ → Finish 2 τ →
        ∃ s1 s2, runLoop (procStep Ex60.cfg Tree.Ex.S X) σ ⟨st2.fs, fun _ => none⟩ = .ok s1 ∧ runLoop (finStep Ex60.cfg Tree.Ex.S X parts [5, 4, 2]) τ s1 = .ok s2 ∧
          ∀ green, ∃ d' a b st, finishGreen Ex60.cfg Tree.Ex.S enc (fun n => decide (n ≠ 9)) 9 s.region 1 ⟨s2.fs, green⟩ = .ok d' ∧ coordsOf s.region 1 [5, 4, 2] = .ok (a, b, st) ∧
            (∀ e, e ≠ 9 → d'.green e = if decide (e ≠ 9) then none else green e) ∧ (∀ e f, d'.fs (e, f) = if decide (e ≠ 9) then none else s2.fs (e, f)) ∧
            ∀ n, ∃ (G : Lib) (gm : GFMeta) (I : Lib × FS → Prop), load Ex60.cfg Tree.Ex.S 9 n d' = .ok (G, gm) ∧ gm = ⟨a.map enc, b.map enc, st.map enc⟩ ∧ I (G, d'.fs) ∧
              ∀ kn, IsKernel kn → kn.support ≤ 2 → Answers (libOf (readerCfg Ex60.cfg n) val) I (gmetaOf val gm) kn (meepField val (sampled Ex57.F [0, 1]) 1 2 1 0 pd) ⟨4, 3, 1, 2, 2, true⟩ := by
  obtain ⟨s, h1, h2, h3⟩ := stored
  obtain ⟨st1, st2, parts, a1, a2, a3⟩ := C69_meep_signal_partial Ex60.cfg Ex60.cfg_ok rfl rfl rfl (fun _ => (by show 77 < 2 ^ 32; decide)) Tree.Ex.S Tree.Ex.Z (fun _ => none) setup h1 h2 h3 (dt := 1) (ts := 1) (tEnd := 1)
    one_pos one_pos zero_le_one samples Ex57.F 2 2 1 pd [P] [1, 1, 1] ⟨[], []⟩ ⟨[], []⟩ X (by rw [h2, h3]; exact padded) (by rw [h2, h3]; exact ok) pipe (pts := 2) rfl (.inl rfl) (by decide)
    (gone := fun n => decide (n ≠ 9)) rfl enc (fun x => lt_of_le_of_lt (min_le_right _ _) (by decide)) (val := val) (fun x hx => by
      unfold val
      rcases hx with rfl | rfl
      · simp
      · simp) (by
      have : enc (1 / ((([0, 1] : List Nat).length : ℝ) - 1)) = 1 := by
        unfold enc
        norm_num
      rw [this]
      unfold val
      norm_num)
  refine ⟨s, st1, st2, parts, h1, ?_, a2, ?_⟩
  · rw [h2] at a1; exact a1
  · rw [h3] at a3; exact a3

/-- The coordinates in this format: all steps are rounded to 1. -/
noncomputable def G : GMeta ℝ := ⟨0, 1, 0, 1, 1, 1⟩

/-- A request for two samples that meets the conditions, whatever the field is. -/
example (A : Nat → Int → Int → Int → ℝ) : SamplesOk G linear A ⟨4, 3, 1, 2, 2, true⟩ (3 / 2) (5 / 2) 0 1 2 := by
  have hx : G.x (3 / 2) = 3 / 2 := by norm_num [GMeta.x, G]
  have hy : G.y (5 / 2) = 3 / 2 := by norm_num [GMeta.y, G]
  have ht : ∀ k : Nat, G.t (0 + k * 1) = k := fun k => by unfold GMeta.t G; simp
  have ht0 : G.t 0 = 0 := by norm_num [GMeta.t, G]
  refine ⟨one_pos, by decide, by norm_num [G], by rw [ht0], by rw [hx, hy]; norm_num, fun k hk => ?_, fun j k hjk hk _ _ _ => ?_⟩
  · rw [hx, hy, ht]
    have hk' : (k : ℝ) ≤ 1 := by exact_mod_cast (by omega : k ≤ 1)
    refine ⟨⟨by norm_num, by norm_num, Nat.cast_nonneg _, by push_cast; linarith⟩, fun h => ?_, fun h => ?_⟩
    · exact absurd (show (1 : Nat) = 2 from h) (by decide)
    · exact absurd (show (1 : Nat) = 2 from h) (by decide)
  · left
    have e1 : j = 0 := by omega
    have e2 : k = 1 := by omega
    rw [ht, ht, e1, e2]
    simp

end Ex69

end Verif.Meep
