import Verif.Meep.FillRun
import Verif.Meep.Props60
/-
C61: the whole calculation, from the field in MEEP to the stored field.
-/
set_option linter.unusedSectionVars false
namespace Verif.Meep
open Verif Verif.ND Verif.Dist Verif.Tree Verif.Ops Verif.Rebuild

variable {K : Type} [Field K] [LinearOrder K] [IsStrictOrderedRing K]

/-! ### A process -/

/-- The process with the buffers that are computed. -/
noncomputable def MProc.proc (P : MProc) (X : Phys K) (p : Padded) : Proc :=
  ⟨P.work, P.out, P.uuid, P.chunks.map MeepChunk.box, fun n r => match ((P.chunks.map MeepChunk.box).filterMap (setupChunk p.start p.shape))[r]? with
    | some c => fldBuf X n (addVec p.start c.start) c.shape
    | none => []⟩

theorem fillJob_ok {X : Phys K} {C : Cfg} {S : Sorter} {T L : Nat} {ds : List Nat} {N dims : Nat} (hN : N < 2 ^ 62) {init : List Nat} {B : Buffers K} {p : Padded} (hp : Range dims p.start p.shape) {P : MProc}
    (hf : ∀ c ∈ P.chunks, ChunkFacts dims c) (hnd : (P.chunks.map MeepChunk.key).Nodup) {st st' : MState}
    (h : job C S T L ds N init B.proc B.chunk ((P.proc X p).job p) st = .ok st') : fillJob X C S T L ds N init B p P st = .ok st' := by
  unfold job at h
  obtain ⟨r, h1, h2⟩ := Res.bind_eq_ok.1 h
  obtain ⟨sv, h3, h4⟩ := Res.bind_eq_ok.1 h2
  let q0 : FillState K := ⟨fun _ => none, 0, Tracker.new Nat K 2, (mkHdr 2 B.fld.1, B.fld.2), (mkHdr 1 B.abs.1, B.abs.2), ⟨B.proc, B.chunk, r.1⟩⟩
  have htr : TrackOk X q0.metas (fun _ => 0) [] := ⟨legal_nil, fun key m hk => by cases hk⟩
  obtain ⟨q1, e1, e2, e3, e4, _⟩ := setupAll_ok (X := X) hp P.chunks q0 hf hnd (fun _ _ => rfl) ⟨rfl, ⟨⟨_, rfl⟩, _, rfl⟩, [], htr, new_inv 2⟩
    ⟨[], htr, new_inv 2, fun _ _ _ => ⟨by simp, by simp⟩⟩
  obtain ⟨q2, _, f1, f2, _⟩ := steps_ok (C := C) (S := S) (T := T) (L := L) (ds := ds) (uuid := P.uuid) hp (fun n r => (P.proc X p).fld n r) hf hnd e4 N hN
    (fun n _ x hx => by
      have hx' := List.mem_zipIdx hx
      simp only [Nat.zero_le, Nat.sub_zero, true_and, Nat.zero_add] at hx'
      obtain ⟨g1, g2⟩ := hx'
      show (match ((P.chunks.map MeepChunk.box).filterMap (setupChunk p.start p.shape))[x.2]? with
        | some c => fldBuf X n (addVec p.start c.start) c.shape
        | none => []) = _
      rw [List.getElem?_eq_getElem g1, ← g2]) q1 sv e3
    (by rw [e2]; exact h3)
  unfold fillJob
  have h1' : MState.run C S st [LOp.open P.work init] = .ok r := h1
  rw [h1', Res.ok_bind, e1, Res.ok_bind, f1, Res.ok_bind, f2]
  exact h4

/-! ### Samples -/

section samples
variable {X : Phys K} {p : Padded} {dims : Nat} {c : MeepChunk}

theorem IsPeak.unique {n : Nat} {i : List Nat} {M M' : K} (h : IsPeak X p c n i M) (h' : IsPeak X p c n i M') : M = M' := by
  have hle : ∀ {A B : K}, IsPeak X p c n i A → IsPeak X p c n i B → A ≤ B := by
    intro A B hA hB
    rcases hA.attained with h0 | ⟨n', h1, j, h2, h3, rfl⟩
    · rw [h0]; exact hB.nonneg
    · exact hB.upper n' h1 j h2 h3
  exact le_antisymm (hle h h') (hle h' h)

theorem isPeak_peakAt (hp : Range dims p.start p.shape) (hc : Range dims c.box.start c.box.shape) (ho : overlaps c.box.start c.box.shape p.start p.shape = true) (n : Nat) {k : List Nat}
    (hk : ValidInd (chunkOverlap c.box.start c.box.shape p.start p.shape).2 k) :
    IsPeak X p c n (addVec (chunkOverlap c.box.start c.box.shape p.start p.shape).1 k)
      (peakAt X n (chunkOverlap c.box.start c.box.shape p.start p.shape).1 (chunkOverlap c.box.start c.box.shape p.start p.shape).2 k) := by
  obtain ⟨l1, l2, hf⟩ := overlap_facts hc hp ho
  obtain ⟨hr, hin⟩ := C54_overlap hc hp ho
  generalize hs : (chunkOverlap c.box.start c.box.shape p.start p.shape).1 = s at *
  generalize hsh : (chunkOverlap c.box.start c.box.shape p.start p.shape).2 = sh at *
  have hkl : k.length = dims := by rw [hk.1, l2]
  have hstored : ∀ j, c.StoredAt p j ↔ ∃ k', ValidInd sh k' ∧ j = addVec s k' := by
    intro j
    unfold MeepChunk.StoredAt
    rw [← hin j, inBox_range hr]
    constructor
    · rintro ⟨hl, hj⟩
      refine ⟨subVec j s, ⟨by rw [length_subVec (by omega)]; omega, fun d hd => ?_⟩, ?_⟩
      · rw [getD_subVec (by omega)]
        have := hj d (by omega)
        omega
      · apply ext_getD
        · rw [addVec_length (by rw [length_subVec (by omega)]; omega)]; omega
        · intro d hd
          rw [getD_addVec (by rw [length_subVec (by omega)]; omega), getD_subVec (by omega)]
          have := hj d (by omega)
          omega
    · rintro ⟨k', hk', rfl⟩
      have hl : k'.length = dims := by rw [hk'.1, l2]
      refine ⟨by rw [addVec_length (by omega)]; exact l1, fun d hd => ?_⟩
      rw [getD_addVec (by omega)]
      have := hk'.2 d (by omega)
      omega
  have hblock : ∀ k', ValidInd sh k' → (c.SameBlock p (addVec s k) (addVec s k') ↔ SameCell 2 k k') := by
    intro k' hk'
    have hl : k'.length = dims := by rw [hk'.1, l2]
    unfold MeepChunk.SameBlock SameCell
    rw [hp.len]
    have key : ∀ d < dims, ((addVec s k).getD d 0 - max (c.box.start.getD d 0) (p.start.getD d 0) = k.getD d 0) ∧
        ((addVec s k').getD d 0 - max (c.box.start.getD d 0) (p.start.getD d 0) = k'.getD d 0) := by
      intro d hd
      rw [getD_addVec (by omega), getD_addVec (by omega)]
      have := (hf d hd).1
      omega
    constructor
    · intro h
      refine ⟨by omega, fun d hd => ?_⟩
      have := h d (by omega)
      rwa [(key d (by omega)).1, (key d (by omega)).2] at this
    · rintro ⟨_, h⟩ d hd
      rw [(key d hd).1, (key d hd).2]
      exact h d (by omega)
  refine ⟨foldr_max_nonneg _, fun n' hn j hj hb => ?_, ?_⟩
  · obtain ⟨k', hk', rfl⟩ := (hstored j).1 hj
    exact foldr_max_ge (mem_peak.2 ⟨n', hn, k', hk', (hblock k' hk').1 hb, rfl⟩)
  · unfold peakAt
    have h9 := foldr_max_att ((List.range (n + 1)).flatMap fun n' => ((elemLoop (sh.map fun _ => 0) sh).filter fun (j : List Nat) => decide (k.map (· / 2) = j.map (· / 2))).map
      fun j => X.mag n' (addVec s j))
    rcases h9 with h0 | h0
    · exact Or.inl h0
    · obtain ⟨n', h1, j, h2, h3, h4⟩ := mem_peak.1 h0
      exact Or.inr ⟨n', h1, addVec s j, (hstored _).2 ⟨j, h2, rfl⟩, (hblock j h2).2 h3, h4⟩

end samples

/-! ### All processes -/

section calc_
variable {X : Phys K} {C : Cfg} {S : Sorter} {T L ds N : Nat} {cal start shape : List Nat} {p : Padded} {out : Nat} {fs : FS} {procs : List MProc}

theorem MeepOk.chunkFacts (h : MeepOk X C T L ds N cal start shape out fs procs) {P : MProc} (hP : P ∈ procs) {c : MeepChunk} (hc : c ∈ P.chunks) : ChunkFacts start.length c := by
  obtain ⟨g1, g2⟩ := h.grid P hP c hc
  obtain ⟨f1, f2, f3, f4, f5, f6, f7⟩ := chunk_facts g1 g2 (fun d hd => by have := h.dom.lt d hd; omega)
  refine ⟨f1, f2, ⟨f3, f4, fun d hd => ?_⟩, fun i => (f6 i).1, fun x hx => ?_⟩
  · have := (f5 d hd).2
    have := h.dom.lt d hd
    omega
  · obtain ⟨i, h1, h2, h3⟩ := f7 x hx
    refine ⟨i, h1, h2, fun y hy => ?_⟩
    obtain ⟨d, hd, rfl⟩ := List.getElem_of_mem hy
    have h4 := h3 d (by omega)
    have h5 := h.dom.lt d (by omega)
    rw [List.getD_eq_getElem?_getD (l := i), List.getElem?_eq_getElem hd] at h4
    simp only [Option.getD_some] at h4
    omega

theorem pairwise_mem {α : Type} {R : α → α → Prop} (hs : ∀ a b, R a b → R b a) : ∀ {l : List α}, l.Pairwise R → ∀ {a b : α}, a ∈ l → b ∈ l → a ≠ b → R a b
  | x :: l, h, a, b, ha, hb, hne => by
      rw [List.pairwise_cons] at h
      rcases List.mem_cons.1 ha with e1 | h1
      · rcases List.mem_cons.1 hb with e2 | h2
        · exact absurd (e1.trans e2.symm) hne
        · rw [e1]; exact h.1 b h2
      · rcases List.mem_cons.1 hb with e2 | h2
        · rw [e2]; exact hs _ _ (h.1 a h1)
        · exact pairwise_mem hs h.2 h1 h2 hne

/-- A sample is determined by step and index. -/
theorem MeepOk.unique (h : MeepOk X C T L ds N cal start shape out fs procs) {n : Nat} {i u v : List Nat} (hu : IsSample X p procs n i u) (hv : IsSample X p procs n i v) : u = v := by
  obtain ⟨P, hP, c, hc, hs, M, hM, u1, u2⟩ := hu
  obtain ⟨P', hP', c', hc', hs', M', hM', v1, v2⟩ := hv
  have he : c = c' := by
    by_contra hne
    have := pairwise_mem (fun a b hab x hx => hab x ⟨hx.2, hx.1⟩) h.apart (List.mem_flatMap.2 ⟨P, hP, hc⟩) (List.mem_flatMap.2 ⟨P', hP', hc'⟩) hne
    exact this i ⟨hs.1, hs'.1⟩
  subst he
  have := hM.unique hM'
  subst this
  by_cases hsu : Survives M (X.mag n i) X.absMin X.dr
  · rw [u1 hsu, v1 hsu]
  · rw [u2 hsu, v2 hsu]

open Classical in
/-- The field of samples. -/
noncomputable def sampleField (X : Phys K) (p : Padded) (procs : List MProc) : SimField := fun n i => if h : ∃ v, IsSample X p procs n i v then Classical.choose h else []

/-- The computed buffers hold samples. -/
theorem MeepOk.buffer (h : MeepOk X C T L ds N cal start shape out fs procs) (hp : Range start.length p.start p.shape) {P : MProc} (hP : P ∈ procs) {c : MeepChunk} (hc : c ∈ P.chunks)
    (ho : overlaps c.box.start c.box.shape p.start p.shape = true) (n : Nat) {k : List Nat} (hk : ValidInd (chunkOverlap c.box.start c.box.shape p.start p.shape).2 k) :
    IsSample X p procs n (addVec (chunkOverlap c.box.start c.box.shape p.start p.shape).1 k)
      ((truncAt X n (chunkOverlap c.box.start c.box.shape p.start p.shape).1 (chunkOverlap c.box.start c.box.shape p.start p.shape).2 k).map X.enc) := by
  have hcf := h.chunkFacts hP hc
  obtain ⟨hr, hin⟩ := C54_overlap hcf.range hp ho
  have hkl : k.length = start.length := by rw [hk.1, hr.len']
  refine ⟨P, hP, c, hc, (hin _).1 ?_, _, isPeak_peakAt hp hcf.range ho n hk, fun hs => ?_, fun hs => ?_⟩
  · rw [inBox_range hr]
    refine ⟨by rw [addVec_length (by rw [hkl, hr.len])]; exact hr.len, fun d hd => ?_⟩
    rw [getD_addVec (by rw [hkl, hr.len])]
    have := hk.2 d (by rw [hr.len']; exact hd)
    omega
  · unfold truncAt; rw [if_pos hs]
  · unfold truncAt; rw [if_neg hs]; rfl

theorem meep_calc (h : MeepOk X C T L ds N cal start shape out fs procs) {pad : Nat} (hp : padDomain cal start shape ds pad = .ok p) :
    CalcOk C T L ds N cal start shape p (sampleField X p procs) out fs (procs.map fun P => P.proc X p) ∧
    (∀ n i, InBox p.start (addVec p.start p.shape) i → IsSample X p procs n i (sampleField X p procs n i)) ∧
    ∀ (S : Sorter) (init : List Nat) (B : Buffers K) (st st' : MState),
      runLoop (job C S T L (start.map fun _ => ds) N init B.proc B.chunk) ((procs.map fun P => P.proc X p).map fun P => P.job p) st = .ok st' →
      runLoop (fillJob X C S T L (start.map fun _ => ds) N init B p) procs st = .ok st' := by
  obtain ⟨r, e, _, _, l1, l2, h3, _⟩ := C55_padding h.dom pad
  rw [hp] at e
  cases e
  have hpr : Range start.length p.start p.shape := ⟨l1, l2, fun d hd => by
    have := (h3 d hd).2.2.2.2
    have := h.dom.lt d hd
    omega⟩
  have hsample : ∀ n i v, IsSample X p procs n i v → sampleField X p procs n i = v := by
    intro n i v hv
    have hex : ∃ v, IsSample X p procs n i v := ⟨v, hv⟩
    unfold sampleField
    rw [dif_pos hex]
    exact h.unique (Classical.choose_spec hex) hv
  have hmem : ∀ {Q : Proc}, Q ∈ (procs.map fun P => P.proc X p) → ∃ P ∈ procs, P.proc X p = Q := fun hQ => List.mem_map.1 hQ
  refine ⟨⟨h.dims, h.stream, h.posT, h.posL, h.dom, ?_, ?_, ?_, ?_, h.vol, ?_, ?_, ?_, ?_, ?_, ?_, h.index, h.steps, h.total⟩, ?_, ?_⟩
  · intro Q hQ c hc
    obtain ⟨P, hP, rfl⟩ := hmem hQ
    obtain ⟨mc, hmc, rfl⟩ := List.mem_map.1 hc
    obtain ⟨g1, g2⟩ := h.grid P hP mc hmc
    obtain ⟨_, _, f3, f4, f5, _⟩ := chunk_facts g1 g2 (fun d hd => by have := h.dom.lt d hd; omega)
    exact ⟨f3, f4, f5⟩
  · have : ((procs.map fun P => P.proc X p).flatMap fun P => P.raw) = (procs.flatMap fun P => P.chunks).map MeepChunk.box := by
      rw [List.flatMap_map, List.map_flatMap]; rfl
    rw [this, List.pairwise_map]
    exact h.apart
  · intro i hi
    obtain ⟨P, hP, c, hc, hci⟩ := h.cover i hi
    exact ⟨P.proc X p, List.mem_map.2 ⟨P, hP, rfl⟩, c.box, List.mem_map.2 ⟨c, hc, rfl⟩, hci⟩
  · intro Q hQ n hn r c hr
    obtain ⟨P, hP, rfl⟩ := hmem hQ
    replace hr : ((P.chunks.map MeepChunk.box).filterMap (setupChunk p.start p.shape))[r]? = some c := hr
    have hfld : (P.proc X p).fld n r = fldBuf X n (addVec p.start c.start) c.shape := by
      show (match ((P.chunks.map MeepChunk.box).filterMap (setupChunk p.start p.shape))[r]? with
        | some c => fldBuf X n (addVec p.start c.start) c.shape
        | none => []) = _
      rw [hr]
    obtain ⟨b, hb, hset⟩ := List.mem_filterMap.1 (List.mem_of_getElem? hr)
    obtain ⟨mc, hmc, rfl⟩ := List.mem_map.1 hb
    have hcf := h.chunkFacts hP hmc
    have ho : overlaps mc.box.start mc.box.shape p.start p.shape = true := by
      by_contra hne
      unfold setupChunk at hset
      rw [if_neg hne] at hset
      cases hset
    have hcc : c = ⟨vsub (chunkOverlap mc.box.start mc.box.shape p.start p.shape).1 p.start, (chunkOverlap mc.box.start mc.box.shape p.start p.shape).2⟩ := by
      unfold setupChunk at hset
      rw [if_pos ho] at hset
      injection hset with hset
      exact hset.symm
    have hst : addVec p.start c.start = (chunkOverlap mc.box.start mc.box.shape p.start p.shape).1 := by
      rw [hcc]; exact addVec_vsub_dom hpr hcf.range ho
    have hsh : c.shape = (chunkOverlap mc.box.start mc.box.shape p.start p.shape).2 := by rw [hcc]
    obtain ⟨hrg, hin⟩ := C54_overlap hcf.range hpr ho
    rw [hfld, hst, hsh, h.vd]
    obtain ⟨b1, b2⟩ := fldBuf_spec X n (chunkOverlap mc.box.start mc.box.shape p.start p.shape).1 (range_small hrg).2
    refine ⟨b1, fun w hw => ?_, fun k hk => ?_⟩
    · obtain ⟨x, hx, rfl⟩ := List.getElem_of_mem hw
      rw [b1, volume_eq, Nat.mul_comm] at hx
      obtain ⟨i, hi, he⟩ := lin_surj (1 :: (chunkOverlap mc.box.start mc.box.shape p.start p.shape).2) (x / 2) (Nat.div_lt_of_lt_mul hx)
      obtain ⟨k0, k, rfl, hk0, hk⟩ := validInd_cons_left.1 hi
      have : k0 = 0 := by omega
      subst this
      have hrd := b2 k hk
      rw [read_own b1 (validInd_cons.2 ⟨by omega, hk⟩), he] at hrd
      injection hrd with hrd
      have hm := Nat.div_add_mod x 2
      have hlt := Nat.mod_lt x (y := 2) (by decide)
      have h7 := congrArg (fun l => l[x % 2]?) hrd
      simp only [List.getElem?_take, if_pos hlt, List.getElem?_drop] at h7
      rw [hm, List.getElem?_eq_getElem (by rw [b1, volume_eq, Nat.mul_comm]; exact hx), List.getElem?_map] at h7
      obtain ⟨y, _, hy⟩ := Option.map_eq_some_iff.1 h7.symm
      rw [← hy]
      exact h.enc y
    · rw [b2 k hk]
      have hkl : k.length = start.length := by rw [hk.1, hrg.len']
      have hcl : c.start.length = start.length := by
        have := congrArg List.length hst
        rw [hrg.len] at this
        unfold addVec at this
        rw [List.length_zipWith] at this
        have h8 : c.start.length = start.length := by
          rw [hcc]
          show (vsub _ _).length = _
          rw [length_vsub (by rw [hrg.len, hpr.len]), hrg.len]
        exact h8
      have hadd : addVec p.start (addVec c.start k) = addVec (chunkOverlap mc.box.start mc.box.shape p.start p.shape).1 k := by
        rw [← hst]
        apply ext_getD
        · rw [addVec_length (by rw [addVec_length (by omega)]; omega), addVec_length (by rw [addVec_length (by omega)]; omega), addVec_length (by omega)]
        · intro d _
          rw [getD_addVec (by rw [addVec_length (by omega)]; omega), getD_addVec (by omega), getD_addVec (by rw [addVec_length (by omega)]; omega), getD_addVec (by omega)]
          omega
      rw [hadd, hsample n _ _ (h.buffer hpr hP hmc ho n hk)]
  · intro Q hQ
    obtain ⟨P, hP, rfl⟩ := hmem hQ
    exact h.name P hP
  · intro Q hQ
    obtain ⟨P, hP, rfl⟩ := hmem hQ
    exact h.inj P hP
  · rw [List.pairwise_map]; exact h.names
  · rw [List.pairwise_map]; exact h.dirs
  · intro Q hQ
    obtain ⟨P, hP, rfl⟩ := hmem hQ
    exact h.own P hP
  · intro Q hQ
    obtain ⟨P, hP, rfl⟩ := hmem hQ
    exact h.clean P hP
  · -- every index of the domain has a sample
    intro n i hi
    have hi' := (inBox_range hpr).1 hi
    obtain ⟨P, hP, c, hc, hci⟩ := h.cover i ⟨by rw [hi'.1, h.dom.len.2.2], fun d hd => by
      rw [h.dom.len.2.2] at hd
      have := hi'.2 d hd
      have := (h3 d hd).2.2.2.2
      omega⟩
    have hcf := h.chunkFacts hP hc
    have ho := (C54_overlaps hcf.range hpr).1 ⟨i, hci, hi⟩
    obtain ⟨hrg, hin⟩ := C54_overlap hcf.range hpr ho
    have hio := (inBox_range hrg).1 ((hin i).2 ⟨hci, hi⟩)
    have hlk : (subVec i (chunkOverlap c.box.start c.box.shape p.start p.shape).1).length = start.length := by rw [length_subVec (by rw [hio.1, hrg.len])]; exact hio.1
    have hk : ValidInd (chunkOverlap c.box.start c.box.shape p.start p.shape).2 (subVec i (chunkOverlap c.box.start c.box.shape p.start p.shape).1) :=
      ⟨by rw [hlk, hrg.len'], fun d hd => by
        rw [hrg.len'] at hd
        rw [getD_subVec (by rw [hio.1, hrg.len])]
        have := hio.2 d hd
        omega⟩
    have hb := h.buffer hpr hP hc ho n hk
    have : addVec (chunkOverlap c.box.start c.box.shape p.start p.shape).1 (subVec i (chunkOverlap c.box.start c.box.shape p.start p.shape).1) = i := by
      apply ext_getD
      · rw [addVec_length (by rw [hlk, hrg.len]), hrg.len, hio.1]
      · intro d hd
        rw [addVec_length (by rw [hlk, hrg.len]), hrg.len] at hd
        rw [getD_addVec (by rw [hlk, hrg.len]), getD_subVec (by rw [hio.1, hrg.len])]
        have := hio.2 d hd
        omega
    rw [this] at hb
    rw [hsample n i _ hb]
    exact hb
  · -- the jobs
    intro S init B
    have : ∀ (l : List MProc), (∀ P ∈ l, P ∈ procs) → ∀ st st',
        runLoop (job C S T L (start.map fun _ => ds) N init B.proc B.chunk) ((l.map fun P => P.proc X p).map fun P => P.job p) st = .ok st' →
        runLoop (fillJob X C S T L (start.map fun _ => ds) N init B p) l st = .ok st' := by
      intro l
      induction l with
      | nil => intro _ st st' hrun; exact hrun
      | cons P l ih =>
        intro hl st st' hrun
        simp only [List.map_cons, runLoop] at hrun
        obtain ⟨st1, g1, g2⟩ := Res.bind_eq_ok.1 hrun
        have hP := hl P (by simp)
        simp only [runLoop]
        rw [fillJob_ok h.steps hpr (fun c hc => h.chunkFacts hP hc) (h.keys P hP) g1, Res.ok_bind]
        exact ih (fun Q hQ => hl Q (by simp [hQ])) st1 st' g2
    exact this procs fun _ hP => hP

/-- **C61.** The calculation as a whole, with the callbacks that fetch the field from MEEP. For every field in MEEP, all processes with any division of the calculation domain into simulation
    chunks, visited in any order, every dynamic range and threshold: the jobs and the merging succeed, and in the stored result
    * the element at index `j` and time `n` (first and last axis exchanged) is the sample for step `n` and the index `p.start + ds * j`: the field (radial component first) if it
      survives the limit on the dynamic range relative to the largest magnitude so far in its `2 × 2` block, and zero otherwise;
    * every iteration calls exactly for these elements, once for each, with these values;
    * the shape is the number of steps and the extents of the padded domain divided by `ds`, rounded up. -/
theorem C61_calculation (X : Phys K) (C : Cfg) (hC : C.Ok) (S : Sorter) (Z : SlabSize) (fs : FS) (T L ds N pad out : Nat) (cal start shape : List Nat) (p : Padded) (procs : List MProc)
    (init : List Nat) (B : Buffers K) (hp : padDomain cal start shape ds pad = .ok p) (h : MeepOk X C T L ds N cal start shape out fs procs) :
    ∃ st1 st2 st3, runLoop (fillJob X C S T L (start.map fun _ => ds) N init B p) procs ⟨none, fs⟩ = .ok st1 ∧
      mergeJobs C S init out (procs.map fun P => P.out) st1 = .ok st2 ∧ MState.step C S st2 (.open out init) = .ok (st3, .unit) ∧
      (∀ n j, n < N → ValidInd p.shape (j.map (· * ds)) →
        ∃ st u v, st3.step C S (.get (swapAt (n :: j) 0 start.length)) = .ok (st, .vec v) ∧ IsSample X p procs n (addVec p.start (j.map (· * ds))) u ∧ VEq u v) ∧
      (∀ lo hi, RegOkay C lo hi → ∃ st calls, st3.step C S (.loop lo hi) = .ok (st, .calls calls) ∧ (calls.map Prod.fst).Nodup ∧
        (∀ i, i ∈ calls.map Prod.fst ↔ InBox lo hi i ∧ ∃ n j, n < N ∧ ValidInd p.shape (j.map (· * ds)) ∧ i = swapAt (n :: j) 0 start.length) ∧
        ∀ c ∈ calls, ∀ n j, n < N → ValidInd p.shape (j.map (· * ds)) → c.1 = swapAt (n :: j) 0 start.length →
          ∃ u, IsSample X p procs n (addVec p.start (j.map (· * ds))) u ∧ VEq u c.2) ∧
      (0 < N → ∃ st s, st3.step C S (.query .shape) = .ok (st, .ind (swapAt (N :: s) 0 start.length)) ∧ s.length = start.length ∧ ∀ d < start.length, IsCeil (p.shape.getD d 0) ds (s.getD d 0)) := by
  obtain ⟨hcalc, hsam, hjob⟩ := meep_calc h hp
  obtain ⟨st1, st2, st3, a1, a2, a3, a4, a5, a6⟩ := C57_calculation C hC S Z fs T L ds N pad out cal start shape p (sampleField X p procs) (procs.map fun P => P.proc X p) init B.proc B.chunk hp hcalc
  have hin : ∀ j : List Nat, ValidInd p.shape (j.map (· * ds)) → InBox p.start (addVec p.start p.shape) (addVec p.start (j.map (· * ds))) := by
    intro j hj
    obtain ⟨l1, l2, _⟩ := hcalc.padded hp
    have hl : (j.map (· * ds)).length = start.length := by rw [hj.1, l2]
    rw [inBox_range (hcalc.range hp)]
    refine ⟨by rw [addVec_length (by omega)]; exact l1, fun d hd => ?_⟩
    rw [getD_addVec (by omega)]
    have := hj.2 d (by omega)
    omega
  have ho : (procs.map fun P => P.proc X p).map (fun P => P.out) = procs.map fun P => P.out := by rw [List.map_map]; rfl
  rw [ho] at a2
  refine ⟨st1, st2, st3, hjob S init B _ _ a1, a2, a3, fun n j hn hj => ?_, fun lo hi hreg => ?_, a6⟩
  · obtain ⟨st, v, g1, g2⟩ := a4 n j hn hj
    exact ⟨st, _, v, g1, hsam n _ (hin j hj), g2⟩
  · obtain ⟨st, calls, g1, g2, g3, g4⟩ := a5 lo hi hreg
    exact ⟨st, calls, g1, g2, g3, fun c hc n j hn hj e => ⟨_, hsam n _ (hin j hj), g4 c hc n j hn hj e⟩⟩

/-- **C61**, up to the final result (C60; the excluded case is the one of `C60_pipeline_partial`). The result of the whole calculation, from the callbacks that fetch the field from MEEP over merging to the
    rearrangement by parallel jobs in any order, holds the samples, with the padding of C60. -/
theorem C61_pipeline_partial (Y : Phys K) (C : Cfg) (hC : C.Ok) (hchunk : C.chunk = (outCfg C).chunk) (hj : ∀ k, C.junk k < 2 ^ 32) (S : Sorter) (Z : SlabSize) (fs : FS) (T L ds N : Nat)
    (cal start shape : List Nat) (p : Padded) (procs : List MProc) (init : List Nat) (B : Buffers K) (X : Rech) (hp : padDomain cal start shape ds X.overlap = .ok p)
    (h : MeepOk Y (outCfg C) T L ds N cal start shape X.indir fs procs) (hN : 0 < N) (hpos : 0 < start.length) (hX : PipeOk C N cal p X)
    (hr : start.getD (start.length - 1) 0 % ds = 0 ∨ X.overlap * ds ≤ start.getD (start.length - 1) 0) :
    ∃ F : SimField, (∀ n i, InBox p.start (addVec p.start p.shape) i → IsSample Y p procs n i (F n i)) ∧
    ∃ st1 st2 parts, runLoop (fillJob Y (outCfg C) S T L (start.map fun _ => ds) N init B p) procs ⟨none, fs⟩ = .ok st1 ∧
      mergeJobs (outCfg C) S init X.indir (procs.map fun P => P.out) st1 = .ok st2 ∧
      ∀ σ τ, Schedule X.jobs parts.length σ → Finish X.jobs τ →
        ∃ s1 s2, runLoop (procStep C S X) σ ⟨st2.fs, fun _ => none⟩ = .ok s1 ∧ runLoop (finStep C S X parts (finalShape ds N shape)) τ s1 = .ok s2 ∧
          Holds C S s2.fs X.out (finalShape ds N shape) X.req X.overlap (PadField C.vd ds N start p F) := by
  obtain ⟨hcalc, hsam, hjob⟩ := meep_calc h hp
  obtain ⟨st1, st2, parts, a1, a2, a3⟩ := C60_pipeline_partial C hC hchunk hj S Z fs T L ds N cal start shape p (sampleField Y p procs) (procs.map fun P => P.proc Y p) init B.proc B.chunk X hp hcalc hN
    hpos hX hr
  have ho : (procs.map fun P => P.proc Y p).map (fun P => P.out) = procs.map fun P => P.out := by rw [List.map_map]; rfl
  rw [ho] at a2
  exact ⟨sampleField Y p procs, hsam, st1, st2, parts, hjob S init B _ _ a1, a2, a3⟩

/-- **C61** with the finer steps of the rechunking (partial: the excluded case of `C60_pipeline_partial`): the processes make single chunks of their partitions in an arbitrary order `σ`. No step fails, each process reaches
    the barrier after a number of steps that does not depend on the others, and when all have reached it the rest succeeds and the finished array holds the samples. -/
theorem C61_any_interleaving_partial (Y : Phys K) (C : Cfg) (hC : C.Ok) (hchunk : C.chunk = (outCfg C).chunk) (hj : ∀ k, C.junk k < 2 ^ 32) (S : Sorter) (Z : SlabSize) (fs : FS) (T L ds N : Nat)
    (cal start shape : List Nat) (p : Padded) (procs : List MProc) (init : List Nat) (B : Buffers K) (X : Rech) (hp : padDomain cal start shape ds X.overlap = .ok p)
    (h : MeepOk Y (outCfg C) T L ds N cal start shape X.indir fs procs) (hN : 0 < N) (hpos : 0 < start.length) (hX : PipeOk C N cal p X)
    (hr : start.getD (start.length - 1) 0 % ds = 0 ∨ X.overlap * ds ≤ start.getD (start.length - 1) 0) :
    ∃ F : SimField, (∀ n i, InBox p.start (addVec p.start p.shape) i → IsSample Y p procs n i (F n i)) ∧
    ∃ (st1 st2 : MState) (parts : List (List Nat × List Nat)) (steps : Nat → Nat), runLoop (fillJob Y (outCfg C) S T L (start.map fun _ => ds) N init B p) procs ⟨none, fs⟩ = .ok st1 ∧
      mergeJobs (outCfg C) S init X.indir (procs.map fun P => P.out) st1 = .ok st2 ∧
      ∀ σ : List Nat, ∃ t, runLoop (fineStep C S X) σ ⟨st2.fs, fun _ => .fresh⟩ = .ok t ∧ (∀ j, steps j ≤ σ.count j → (t.proc j).finished) ∧
        ((∀ j < X.jobs, (t.proc j).finished) → ∀ τ, Finish X.jobs τ → ∃ s2, runLoop (finStep C S X parts (finalShape ds N shape)) τ t.atBarrier = .ok s2 ∧
          Holds C S s2.fs X.out (finalShape ds N shape) X.req X.overlap (PadField C.vd ds N start p F)) := by
  obtain ⟨hcalc, hsam, hjob⟩ := meep_calc h hp
  obtain ⟨st1, st2, parts, steps, a1, a2, a3⟩ := C60_any_interleaving_partial C hC hchunk hj S Z fs T L ds N cal start shape p (sampleField Y p procs) (procs.map fun P => P.proc Y p) init B.proc B.chunk X hp hcalc
    hN hpos hX hr
  have ho : (procs.map fun P => P.proc Y p).map (fun P => P.out) = procs.map fun P => P.out := by rw [List.map_map]; rfl
  rw [ho] at a2
  exact ⟨sampleField Y p procs, hsam, st1, st2, parts, steps, hjob S init B _ _ a1, a2, a3⟩

end calc_

/-! ### Points off the grid -/

/-- If a chunk began at the coordinate 0, its first two points would have the same index (`-1 / 2` is 0): the last element of the buffer would not be written. -/
theorem C61_zero_collides : cellInd 0 = cellInd 2 ∧ chunkStartInd [0] = .ok [0] ∧ chunkShapeOf [0] [4] = [3] ∧ ∀ x : Int, x = 0 ∨ x = 2 ∨ x = 4 → cellInd x ≠ 2 := by
  refine ⟨by decide, rfl, by decide, ?_⟩
  rintro x (rfl | rfl | rfl) <;> decide

/-! ### The hypotheses are met -/

namespace Ex61

/-- A chunk with the points in row-major order. -/
def chunk (key : Nat) (lo hi : List Int) : MeepChunk :=
  ⟨key, lo, hi, (elemLoop (lo.map fun x => ((x - 1) / 2).toNat) (addVec (lo.map fun x => ((x - 1) / 2).toNat) (List.zipWith (fun s e => ((e - s) / 2 + 1).toNat) lo hi))).map node⟩

theorem chunk_ok (key : Nat) {a b c d : Int} (h1 : 1 ≤ a ∧ a % 2 = 1 ∧ c % 2 = 1 ∧ a ≤ c) (h2 : 1 ≤ b ∧ b % 2 = 1 ∧ d % 2 = 1 ∧ b ≤ d) : (chunk key [a, b] [c, d]).Ok 2 := by
  refine ⟨⟨rfl, rfl⟩, ?_, fun x => ?_⟩
  · intro e he
    rcases (by omega : e = 0 ∨ e = 1) with rfl | rfl
    · exact h1
    · exact h2
  · have hb : ∀ i : List Nat, InBox [((a - 1) / 2).toNat, ((b - 1) / 2).toNat] (addVec [((a - 1) / 2).toNat, ((b - 1) / 2).toNat] [((c - a) / 2 + 1).toNat, ((d - b) / 2 + 1).toNat]) i ↔
        i.length = 2 ∧ (((a - 1) / 2).toNat ≤ i.getD 0 0 ∧ i.getD 0 0 < ((a - 1) / 2).toNat + ((c - a) / 2 + 1).toNat) ∧
          (((b - 1) / 2).toNat ≤ i.getD 1 0 ∧ i.getD 1 0 < ((b - 1) / 2).toNat + ((d - b) / 2 + 1).toNat) := by
      intro i
      constructor
      · rintro ⟨g1, _, g2⟩
        have g1' : i.length = 2 := g1
        exact ⟨g1', g2 0 (by omega), g2 1 (by omega)⟩
      · rintro ⟨g1, g2, g3⟩
        refine ⟨g1, g1, fun e he => ?_⟩
        rcases (by omega : e = 0 ∨ e = 1) with rfl | rfl
        · exact g2
        · exact g3
    show x ∈ List.map node _ ↔ _
    rw [List.mem_map]
    constructor
    · rintro ⟨i, hi, rfl⟩
      obtain ⟨g1, g2, g3⟩ := (hb i).1 (mem_elemLoop.1 hi)
      refine ⟨by unfold node; simpa using g1, fun e he => ?_⟩
      have h3 : (node i).getD e 0 = 2 * (i.getD e 0 : Int) + 1 := getI_map (f := fun (k : Nat) => 2 * (k : Int) + 1) (by omega)
      rw [h3]
      rcases (by omega : e = 0 ∨ e = 1) with rfl | rfl
      · show a ≤ _ ∧ _ ≤ c ∧ _
        omega
      · show b ≤ _ ∧ _ ≤ d ∧ _
        omega
    · rintro ⟨g1, g2⟩
      match x, g1 with
      | [y, z], _ =>
        have k1 := g2 0 (by decide)
        have k2 := g2 1 (by decide)
        replace k1 : a ≤ y ∧ y ≤ c ∧ y % 2 = 1 := k1
        replace k2 : b ≤ z ∧ z ≤ d ∧ z % 2 = 1 := k2
        refine ⟨[((y - 1) / 2).toNat, ((z - 1) / 2).toNat], mem_elemLoop.2 ((hb _).2 ⟨rfl, ?_, ?_⟩), ?_⟩
        · show _ ≤ ((y - 1) / 2).toNat ∧ ((y - 1) / 2).toNat < _
          omega
        · show _ ≤ ((z - 1) / 2).toNat ∧ ((z - 1) / 2).toNat < _
          omega
        · unfold node
          simp only [List.map_cons, List.map_nil, List.cons.injEq, and_true]
          omega

/-- The field: the z component is the first coordinate, the r component is zero. The magnitude is computed with the identity for the square root. -/
def X : Phys Rat := ⟨fun _ x => ((x.getD 0 0 : Int), 0), fun y => y, 1, 2, fun y => y.num.toNat % 2 ^ 32, fun _ => 77⟩

/-- The calculation of `Ex57`, as seen by MEEP. -/
def procs : List MProc := [⟨1, 2, fun n r b => [0, n, r, b], [chunk 0 [1, 1] [11, 5]]⟩, ⟨3, 4, fun n r b => [1, n, r, b], [chunk 1 [1, 7] [3, 13], chunk 5 [5, 7] [11, 13]]⟩]

theorem ok : MeepOk X Ex45.cfg 2 2 2 2 [6, 7] [1, 2] [3, 4] 0 (fun _ => none) procs := by
  refine ⟨rfl, fun x => Nat.mod_lt _ (by decide), ?_, ?_, ?_, ?_, rfl, rfl, by decide, by decide, Ex57.ok.dom, by decide, ?_, ?_, ?_, ?_, ?_, fun _ _ _ => ⟨rfl, rfl⟩, fun _ => rfl, by decide, by decide⟩
  · intro P hP c hc
    rcases (by simpa [procs] using hP : P = _ ∨ P = _) with rfl | rfl
    · simp at hc
      subst hc
      exact ⟨chunk_ok 0 (by decide) (by decide), by show ∀ d < 2, List.getD [11, 5] d 0 < 2 * ((List.getD [6, 7] d 0 : Nat) : Int); decide⟩
    · rcases (by simpa using hc : c = _ ∨ c = _) with rfl | rfl
      · exact ⟨chunk_ok 1 (by decide) (by decide), by show ∀ d < 2, List.getD [3, 13] d 0 < 2 * ((List.getD [6, 7] d 0 : Nat) : Int); decide⟩
      · exact ⟨chunk_ok 5 (by decide) (by decide), by show ∀ d < 2, List.getD [11, 13] d 0 < 2 * ((List.getD [6, 7] d 0 : Nat) : Int); decide⟩
  · intro P hP
    rcases (by simpa [procs] using hP : P = _ ∨ P = _) with rfl | rfl <;> decide
  · have h : (procs.flatMap fun P => P.chunks).Pairwise fun c c' => ∀ i ∈ elemLoop c.box.start (addVec c.box.start c.box.shape), i ∉ elemLoop c'.box.start (addVec c'.box.start c'.box.shape) := by decide +kernel
    exact h.imp fun {c c'} h1 i hi => h1 i (mem_elemLoop.2 hi.1) (mem_elemLoop.2 hi.2)
  · have h : ∀ i ∈ elemLoop [0, 0] [6, 7], ∃ P ∈ procs, ∃ c ∈ P.chunks, i ∈ elemLoop c.box.start (addVec c.box.start c.box.shape) := by decide +kernel
    intro i hi
    obtain ⟨P, hP, c, hc, h1⟩ := h i (mem_elemLoop.2 (inBox_zero_iff (s := [6, 7]).2 hi))
    exact ⟨P, hP, c, hc, mem_elemLoop.1 h1⟩
  · intro P hP n r b
    rcases (by simpa [procs] using hP : P = _ ∨ P = _) with rfl | rfl <;> exact ⟨by simp, by simp⟩
  · intro P hP n r b n' r' b' he
    rcases (by simpa [procs] using hP : P = _ ∨ P = _) with rfl | rfl <;> simpa using he
  · refine List.Pairwise.cons ?_ (List.pairwise_singleton _ _)
    intro P hP n r b n' r' b' he
    simp at hP
    subst hP
    simp at he
  · decide
  · decide

/-- The samples are not trivial: in the block of the indices 1 and 2 (the domain begins at 1) the magnitudes are 9 and 25; with a dynamic range of 2, the first is set to zero and the second stays. -/
theorem sample (i0 v : Nat) (h : (i0 = 1 ∧ v = 0) ∨ (i0 = 2 ∧ v = 5)) : IsSample X Ex57.pd procs 1 [i0, 0] [0, v] := by
  have hr : Range 2 Ex57.pd.start Ex57.pd.shape := ⟨rfl, rfl, by decide⟩
  have hc : Range 2 (chunk 0 [1, 1] [11, 5]).box.start (chunk 0 [1, 1] [11, 5]).box.shape := ⟨rfl, rfl, by decide⟩
  have ho : overlaps (chunk 0 [1, 1] [11, 5]).box.start (chunk 0 [1, 1] [11, 5]).box.shape Ex57.pd.start Ex57.pd.shape = true := by decide +kernel
  have e1 : (chunkOverlap (chunk 0 [1, 1] [11, 5]).box.start (chunk 0 [1, 1] [11, 5]).box.shape Ex57.pd.start Ex57.pd.shape).1 = [1, 0] := by decide +kernel
  have e2 : (chunkOverlap (chunk 0 [1, 1] [11, 5]).box.start (chunk 0 [1, 1] [11, 5]).box.shape Ex57.pd.start Ex57.pd.shape).2 = [5, 3] := by decide +kernel
  have hstored : ∀ i : List Nat, i ∈ elemLoop [0, 0] [6, 3] → i ∈ elemLoop [1, 0] [6, 6] → (chunk 0 [1, 1] [11, 5]).StoredAt Ex57.pd i := fun i h1 h2 => ⟨mem_elemLoop.1 h1, mem_elemLoop.1 h2⟩
  refine ⟨_, List.mem_cons_self, _, List.mem_cons_self, ?_⟩
  rcases h with ⟨rfl, rfl⟩ | ⟨rfl, rfl⟩
  · have hp := isPeak_peakAt (X := X) hr hc ho 1 (k := [0, 0]) (by rw [e2]; exact ⟨rfl, by decide⟩)
    rw [e1, e2] at hp
    have : peakAt X 1 [1, 0] [5, 3] [0, 0] = 25 := by decide +kernel
    rw [this] at hp
    refine ⟨hstored _ (by decide +kernel) (by decide +kernel), 25, hp, fun hs => ?_, fun _ => by decide +kernel⟩
    exact absurd hs.2 (by decide +kernel)
  · have hp := isPeak_peakAt (X := X) hr hc ho 1 (k := [1, 0]) (by rw [e2]; exact ⟨rfl, by decide⟩)
    rw [e1, e2] at hp
    have : peakAt X 1 [1, 0] [5, 3] [1, 0] = 25 := by decide +kernel
    rw [this] at hp
    refine ⟨hstored _ (by decide +kernel) (by decide +kernel), 25, hp, fun _ => by decide +kernel, fun hs => ?_⟩
    exact absurd ⟨by decide +kernel, by decide +kernel⟩ hs

example := C61_calculation X Ex45.cfg Ex45.cfg_ok Tree.Ex.S Tree.Ex.Z (fun _ => none) 2 2 2 2 1 0 [6, 7] [1, 2] [3, 4] Ex57.pd procs [1, 1, 1] ⟨([], []), ([], []), ⟨[], []⟩, ⟨[], []⟩⟩ Ex57.padded ok

example := C61_pipeline_partial X Ex60.cfg Ex60.cfg_ok rfl (fun _ => (by show 77 < 2 ^ 32; decide)) Tree.Ex.S Tree.Ex.Z (fun _ => none) 2 2 2 2 [6, 7] [1, 2] [3, 4] Ex57.pd procs [1, 1, 1]
  ⟨([], []), ([], []), ⟨[], []⟩, ⟨[], []⟩⟩ (Ex60.X [1, 0, 0] [0, 1, 0]) Ex57.padded ok (by decide) (by decide) (Ex60.pipe [0, 1] [1, 0] [1, 0] [5, 6]) (Or.inl (by decide))

example := C61_any_interleaving_partial X Ex60.cfg Ex60.cfg_ok rfl (fun _ => (by show 77 < 2 ^ 32; decide)) Tree.Ex.S Tree.Ex.Z (fun _ => none) 2 2 2 2 [6, 7] [1, 2] [3, 4] Ex57.pd procs [1, 1, 1]
  ⟨([], []), ([], []), ⟨[], []⟩, ⟨[], []⟩⟩ (Ex60.X [1, 0, 0] [0, 1, 0]) Ex57.padded ok (by decide) (by decide) (Ex60.pipe [0, 1] [1, 0] [1, 0] [5, 6]) (Or.inl (by decide))

end Ex61

end Verif.Meep
