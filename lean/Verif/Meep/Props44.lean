import Verif.Meep.RechunkEnd
/-
C44 (rechunking by several processes).
-/
namespace Verif.Meep
open Verif Verif.ND Verif.Dist Verif.Tree Verif.Rebuild Verif.Ops

/-- Boxes of the grid that share the index `b` are equal. -/
theorem grid_unique {n : Nat} {stop req b e b' e' : List Nat} (h : BoxOK (List.replicate n 0) stop req b e) (h' : BoxOK (List.replicate n 0) stop req b' e') (hb : InBox b' e' b) :
    b = b' ∧ e = e' := by
  obtain ⟨l1, l2, l3⟩ := h
  obtain ⟨m1, m2, m3⟩ := h'
  rw [List.length_replicate] at *
  have key : ∀ d < n, b.getD d 0 = b'.getD d 0 ∧ e.getD d 0 = e'.getD d 0 := by
    intro d hd
    obtain ⟨_, _, _, _, ⟨k, a5⟩, a6⟩ := l3 d hd
    obtain ⟨_, _, _, _, ⟨k', c5⟩, c6⟩ := m3 d hd
    have h3 := hb.2.2 d (by omega)
    rw [zeros_getD, Nat.zero_add] at a5 c5
    generalize req.getD d 0 = r at *
    have hk : k = k' := by
      rcases Nat.lt_trichotomy k k' with q | q | q
      · have : k * r + r ≤ k' * r := by
          have := Nat.mul_le_mul_right r q
          rw [Nat.succ_mul] at this; exact this
        by_cases hr : r = 0
        · subst hr; simp at a5 c5; omega
        · omega
      · exact q
      · have : k' * r + r ≤ k * r := by
          have := Nat.mul_le_mul_right r q
          rw [Nat.succ_mul] at this; exact this
        omega
    subst hk
    have : b.getD d 0 = b'.getD d 0 := by omega
    exact ⟨this, by omega⟩
  exact ⟨ext_getD (by omega) fun d hd => (key d (by omega)).1, ext_getD (by omega) fun d hd => (key d (by omega)).2⟩

/-- What happens after the barrier. -/
theorem rechunk_rest (C : Cfg) (hC : C.Ok) (hchunk : C.chunk = (outCfg C).chunk) (S : Sorter) (Z : SlabSize) (st : MState) (w : World) (e3 : WInv C S Z st w)
    (hcur : w.cur = none) (X : Rech) (ps : List Piece) (ge : List Nat) (h : CanRechunk C ps ge X) {cs : List (Meta × Arr)} (hsv : Saved C st.fs X.indir cs) (hr : Rep C cs ps)
    {parts : List (List Nat × List Nat)} (hP : PartsOk C ge X parts) {A D : Nat → Prop} {st1 : PState} (a2 : PInv C S Z ps ge X cs parts st.fs A D st1)
    (hA : ∀ j < X.jobs, A j) (hD : ∀ n < parts.length, D n) {τ : List Fin} (hτ : Finish X.jobs τ) :
    ∃ st2 w' ps', runLoop (finStep C S X parts (X.shape ge)) τ st1 = .ok st2 ∧
      -- the directories
      WInv C S Z ⟨none, st2.fs⟩ w' ∧ w'.cur = none ∧ w'.disk X.out = some ps' ∧ (∀ n < parts.length, ∀ m, st2.fs (X.dir n, m) = none) ∧
      (∀ d, d ≠ X.out → (∀ n < parts.length, d ≠ X.dir n) → w'.disk d = w.disk d ∧ ∀ m, st2.fs (d, m) = st.fs (d, m)) ∧
      -- the chunks
      (∀ b e, BoxOK (List.replicate C.dims 0) (X.shape ge) X.req b e ↔ ∃ p ∈ ps', p.start = b ∧ p.stop = e) ∧ (∀ p ∈ ps', p.overlap = X.overlap) ∧
      (∀ i, InBox (List.replicate C.dims 0) (X.shape ge) i ↔ Covered ps' i) ∧ ps'.Pairwise (fun p q => DisjointBox p.start p.stop q.start q.stop) ∧
      -- the values
      (∀ p' ∈ ps', ∀ i, InBox p'.start p'.stop i → ∃ p ∈ ps, InBox p.start p.stop (addVec i X.pre) ∧ p'.val i = p.val (addVec i X.pre)) ∧
      (∀ more, AllLegal C w' more → ∃ st' outs', MState.run C S ⟨none, st2.fs⟩ more = .ok (st', outs') ∧ AllAnswer C w' more outs') ∧
      -- the padding
      (∀ init, ∃ lib, Lib.open C S st2.fs X.out init = .ok lib ∧ ∀ i, InBox (List.replicate C.dims 0) (X.shape ge) i →
        ∃ lib'' fs'' m a, chunkAt C lib st2.fs i = .ok (lib'', fs'', m, a) ∧ InBox m.start m.stop i ∧ BoxOK (List.replicate C.dims 0) (X.shape ge) X.req m.start m.stop ∧ m.overlap = X.overlap ∧
        ((m.ctype = .specified ∧ a.shape = (subVec m.stop m.start).map (· + 2 * X.overlap) ∧
          ∀ j, InBoxZ (padStart m.start X.overlap) (padEnd m.stop X.overlap) j →
            ∃ v, a.get C.vd (loc (padStart m.start X.overlap) j) = .ok v ∧ PadValue C.vd ps ge (shiftZ X.pre j) v) ∨
         (m.ctype = .all_null ∧
          ∀ j, InBoxZ (padStart m.start X.overlap) (padEnd m.stop X.overlap) j → PadValue C.vd ps ge (shiftZ X.pre j) (List.replicate C.vd 0)))) := by
  obtain ⟨st2, cs', b1, b2, b3, b4⟩ := phase2 hC hchunk h hr hP hsv a2 hA hD hτ
  have hrep := b2.rep hC h hsv.chunky hr
  have hcount := h.count b2.made b2.saved.chunky.disj
  open Classical in
  let w' : World := ⟨none, fun d => if d = X.out then some (cs'.map (outPiece ps X)) else if ∃ n < parts.length, d = X.dir n then none else w.disk d,
    fun d m => if d = X.out then ∃ n l, m = X.uuid n l else if ∃ n < parts.length, d = X.dir n then False else w.names d m⟩
  have hother : ∀ d, d ≠ X.out → ¬ (∃ n < parts.length, d = X.dir n) → ∀ m, st2.fs (d, m) = st.fs (d, m) := fun d hd hn m => b4 d hd (fun n hl e => hn ⟨n, hl, e⟩) m
  have hW : WInv C S Z ⟨none, st2.fs⟩ w' := by
    refine ⟨fun _ => rfl, fun l e => (by cases e), fun d ps' hd => ?_, fun d hd _ => ?_, fun d m hm => ?_⟩
    · replace hd : (if d = X.out then some (cs'.map (outPiece ps X)) else if ∃ n < parts.length, d = X.dir n then none else w.disk d) = some ps' := hd
      by_cases h1 : d = X.out
      · rw [if_pos h1] at hd
        cases hd
        subst h1
        refine ⟨cs', b2.saved, hrep, fun p hp hf => ?_⟩
        obtain ⟨c, hc, rfl⟩ := List.mem_map.1 hp
        show if X.out = X.out then _ else _
        rw [if_pos rfl]
        exact (b2.path c hc).resolve_left hf
      · rw [if_neg h1] at hd
        by_cases h2 : ∃ n < parts.length, d = X.dir n
        · rw [if_pos h2] at hd; cases hd
        · rw [if_neg h2] at hd
          obtain ⟨cs₀, c1, c2, c3⟩ := e3.disk d ps' hd
          refine ⟨cs₀, c1.frame fun m => hother d h1 h2 m, c2, fun p hp hf => ?_⟩
          show if d = X.out then _ else _
          rw [if_neg h1, if_neg h2]
          exact c3 p hp hf
    · replace hd : (if d = X.out then some (cs'.map (outPiece ps X)) else if ∃ n < parts.length, d = X.dir n then none else w.disk d) = none := hd
      show st2.fs (d, .index) = none
      by_cases h1 : d = X.out
      · rw [if_pos h1] at hd; cases hd
      · rw [if_neg h1] at hd
        by_cases h2 : ∃ n < parts.length, d = X.dir n
        · obtain ⟨n, hn, rfl⟩ := h2
          exact b3 n hn _
        · rw [if_neg h2] at hd
          rw [hother d h1 h2]
          exact e3.index d hd fun l e => by rw [hcur] at e; cases e
    · show if d = X.out then _ else _
      replace hm : st2.fs (d, .chunk m) ≠ none := hm
      by_cases h1 : d = X.out
      · rw [if_pos h1]; subst h1; exact b2.files m hm
      · rw [if_neg h1]
        by_cases h2 : ∃ n < parts.length, d = X.dir n
        · obtain ⟨n, hn, rfl⟩ := h2
          exact absurd (b3 n hn _) hm
        · rw [if_neg h2]
          rw [hother d h1 h2] at hm
          exact e3.names d m hm
  have h1 := h.preLen; have h3 := h.geLen; have h4 := h.shapeLen
  have hcov : ∀ i, InBox (List.replicate C.dims 0) (X.shape ge) i ↔ Covered (cs'.map (outPiece ps X)) i := fun i => by
    rw [b2.cover]
    constructor
    · rintro ⟨c, hc, hi⟩; exact ⟨_, List.mem_map.2 ⟨c, hc, rfl⟩, hi⟩
    · rintro ⟨p, hp, hi⟩
      obtain ⟨c, hc, rfl⟩ := List.mem_map.1 hp
      exact ⟨c, hc, hi⟩
  refine ⟨st2, w', cs'.map (outPiece ps X), b1, hW, rfl, ?_, b3, fun d hd hd' => ⟨?_, b4 d hd hd'⟩, fun b e => ⟨fun hbe => ?_, ?_⟩, fun p hp => ?_, hcov, ?_, fun p' hp' i hi => ?_,
    fun more hm => ?_, fun init => ?_⟩
  · show (if X.out = X.out then _ else _) = _
    rw [if_pos rfl]
  · show (if d = X.out then _ else _) = _
    rw [if_neg hd, if_neg (fun ⟨n, hn, e⟩ => hd' n hn e)]
  · have hin : InBox (List.replicate C.dims 0) (X.shape ge) b := by
      obtain ⟨l1, l2, l3⟩ := hbe
      refine ⟨l1, by rw [l1]; simp; omega, fun d hd => ?_⟩
      have := l3 d (by omega)
      omega
    obtain ⟨c, hc, hci⟩ := (b2.cover b).1 hin
    obtain ⟨q1, q2⟩ := grid_unique hbe (b2.made c hc).box hci
    exact ⟨_, List.mem_map.2 ⟨c, hc, rfl⟩, q1.symm, q2.symm⟩
  · rintro ⟨p, hp, rfl, rfl⟩
    obtain ⟨c, hc, rfl⟩ := List.mem_map.1 hp
    exact (b2.made c hc).box
  · obtain ⟨c, hc, rfl⟩ := List.mem_map.1 hp
    exact (b2.made c hc).ovl
  · rw [List.pairwise_map]; exact b2.saved.chunky.disj
  · obtain ⟨c, hc, rfl⟩ := List.mem_map.1 hp'
    have hg := (b2.cover i).2 ⟨c, hc, hi⟩
    have hil : i.length = C.dims := by have := hg.1; simpa using this
    have hgin : InBox (List.replicate C.dims 0) ge (addVec i X.pre) := by
      have hl : (addVec i X.pre).length = C.dims := by unfold addVec; rw [List.length_zipWith]; omega
      refine ⟨by simp [hl], by omega, fun d hd => ?_⟩
      have := h.inner d (by omega)
      have := hg.2.2 d (by omega)
      rw [h.shapeD] at this
      rw [zeros_getD, getD_addVec (by omega)]; omega
    obtain ⟨p, hp, hpi⟩ := h.filled _ hgin
    exact ⟨p, hp, hpi, valOf_eq hr hsv.chunky.disj hp hpi⟩
  · obtain ⟨st', outs', f1, f2, _⟩ := runW_ok hC more hW hm
    exact ⟨st', outs', f1, f2⟩
  · obtain ⟨lib, o1, o2, o3, o4⟩ := reopen_ok (S := S) (Z := Z) hC b2.saved hcount init
    refine ⟨lib, o1, fun i hi => ?_⟩
    obtain ⟨c, hc, hci⟩ := (b2.cover i).1 hi
    obtain ⟨lib'', fs'', a, g1, g2⟩ := padded_chunk hC o4 hc hci (b2.made c hc)
    exact ⟨lib'', fs'', c.1, a, g1, hci, (b2.made c hc).box, (b2.made c hc).ovl, g2⟩

/-- C44 for a state of the files that has come about in whatever way. -/
theorem rechunk_core (C : Cfg) (hC : C.Ok) (hchunk : C.chunk = (outCfg C).chunk) (hj : ∀ k, C.junk k < 2 ^ 32) (S : Sorter) (Z : SlabSize) (st : MState) (w : World) (e3 : WInv C S Z st w)
    (hcur : w.cur = none) (X : Rech) (ps : List Piece) (hdisk : w.disk X.indir = some ps) (ge : List Nat) (h : CanRechunk C ps ge X) :
    ∃ parts : List (List Nat × List Nat), (∀ i, InBox X.pre (X.stop ge) i ↔ ∃ p ∈ parts, InBox p.1 p.2 i) ∧ (parts.Pairwise fun p q => DisjointBox p.1 p.2 q.1 q.2) ∧
    ∀ σ τ, Schedule X.jobs parts.length σ → Finish X.jobs τ →
    ∃ st1 st2 w' ps', runLoop (procStep C S X) σ ⟨st.fs, fun _ => none⟩ = .ok st1 ∧ runLoop (finStep C S X parts (X.shape ge)) τ st1 = .ok st2 ∧
      -- the directories
      WInv C S Z ⟨none, st2.fs⟩ w' ∧ w'.cur = none ∧ w'.disk X.out = some ps' ∧ (∀ n < parts.length, ∀ m, st2.fs (X.dir n, m) = none) ∧
      (∀ d, d ≠ X.out → (∀ n < parts.length, d ≠ X.dir n) → w'.disk d = w.disk d ∧ ∀ m, st2.fs (d, m) = st.fs (d, m)) ∧
      -- the chunks
      (∀ b e, BoxOK (List.replicate C.dims 0) (X.shape ge) X.req b e ↔ ∃ p ∈ ps', p.start = b ∧ p.stop = e) ∧ (∀ p ∈ ps', p.overlap = X.overlap) ∧
      (∀ i, InBox (List.replicate C.dims 0) (X.shape ge) i ↔ Covered ps' i) ∧ ps'.Pairwise (fun p q => DisjointBox p.start p.stop q.start q.stop) ∧
      -- the values
      (∀ p' ∈ ps', ∀ i, InBox p'.start p'.stop i → ∃ p ∈ ps, InBox p.start p.stop (addVec i X.pre) ∧ p'.val i = p.val (addVec i X.pre)) ∧
      (∀ more, AllLegal C w' more → ∃ st' outs', MState.run C S ⟨none, st2.fs⟩ more = .ok (st', outs') ∧ AllAnswer C w' more outs') ∧
      -- the padding
      (∀ init, ∃ lib, Lib.open C S st2.fs X.out init = .ok lib ∧ ∀ i, InBox (List.replicate C.dims 0) (X.shape ge) i →
        ∃ lib'' fs'' m a, chunkAt C lib st2.fs i = .ok (lib'', fs'', m, a) ∧ InBox m.start m.stop i ∧ BoxOK (List.replicate C.dims 0) (X.shape ge) X.req m.start m.stop ∧ m.overlap = X.overlap ∧
        ((m.ctype = .specified ∧ a.shape = (subVec m.stop m.start).map (· + 2 * X.overlap) ∧
          ∀ j, InBoxZ (padStart m.start X.overlap) (padEnd m.stop X.overlap) j →
            ∃ v, a.get C.vd (loc (padStart m.start X.overlap) j) = .ok v ∧ PadValue C.vd ps ge (shiftZ X.pre j) v) ∨
         (m.ctype = .all_null ∧
          ∀ j, InBoxZ (padStart m.start X.overlap) (padEnd m.stop X.overlap) j → PadValue C.vd ps ge (shiftZ X.pre j) (List.replicate C.vd 0)))) := by
  obtain ⟨cs, hsv, hr, hnm⟩ := e3.disk _ _ hdisk
  obtain ⟨parts, hP, hst⟩ := startProc_ok (S := S) (Z := Z) hC h hr
  refine ⟨parts, hP.cover, hP.disj, fun σ τ hσ hτ => ?_⟩
  have hi0 : PInv C S Z ps ge X cs parts st.fs (fun _ => False) (fun _ => False) ⟨st.fs, fun _ => none⟩ :=
    ⟨fun _ _ _ => rfl, fun j hj => hj.elim, fun j lib q hq => (by cases hq), fun n hn => hn.elim⟩
  obtain ⟨st1, a1, a2⟩ := phase1 hC hchunk hj h hr hP hst hsv σ _ _ _ hσ.enabled hi0
  obtain ⟨st2, w', ps', r⟩ := rechunk_rest C hC hchunk S Z st w e3 hcur X ps ge h hsv hr hP a2 (fun j hj => Or.inr (hσ.starts hj)) (fun n hn => Or.inr ⟨_, hσ.parts h.jobs.1 hn⟩) hτ
  exact ⟨st1, st2, w', ps', a1, r⟩

/-- **C44.** Rechunking by several processes. After any sequence of allowed calls that leaves no library open and in the directory `X.indir` a library whose chunks fill a box `[0, ge)`,
    all processes find the same disjoint partitions of the array without its padding; and if the processes start and work through their partitions in any order whatsoever (`Schedule`), and
    then process 0 merges while the others close their array objects (`Finish`), then every step succeeds (in particular the assertion on the final shape holds) and:
    * the directories of the partitions are empty, the output directory holds a library and all other directories are as before;
    * its chunks are exactly the boxes of the regular grid of the requested chunk size in the array without padding, each once, with the requested overlap;
    * the value at `i` is the value that the input has at `i + X.pre`; and all further calls give the right answers;
    * around each index `i` the padded chunk that contains it (as the interpolation gets it) either is stored, has the requested padding and holds, at each index `j` in the padded box, what the
      boundary condition asks for in the input array at `j + X.pre`; or it is recorded as "all zero" and this is right. (`PadValue` says nothing about indices outside of the array at negative
      radius whose mirror image is outside, too; see C32.)
    So the result depends neither on the number of processes nor on their relative speed. -/
theorem C44_rechunk (C : Cfg) (hC : C.Ok) (hchunk : C.chunk = (outCfg C).chunk) (hj : ∀ k, C.junk k < 2 ^ 32) (S : Sorter) (Z : SlabSize) (fs : FS) (hfs : ∀ d, fs (d, .index) = none)
    (ops : List LOp) (hl : AllLegal C (World.init fs) ops) (w : World) (hw : (World.init fs).run C ops = w) (hcur : w.cur = none) (X : Rech) (ps : List Piece) (hdisk : w.disk X.indir = some ps)
    (ge : List Nat) (h : CanRechunk C ps ge X) :
    ∃ parts : List (List Nat × List Nat), (∀ i, InBox X.pre (X.stop ge) i ↔ ∃ p ∈ parts, InBox p.1 p.2 i) ∧ (parts.Pairwise fun p q => DisjointBox p.1 p.2 q.1 q.2) ∧
    ∀ σ τ, Schedule X.jobs parts.length σ → Finish X.jobs τ →
    ∃ st outs st1 st2 w' ps', MState.run C S ⟨none, fs⟩ ops = .ok (st, outs) ∧
      runLoop (procStep C S X) σ ⟨st.fs, fun _ => none⟩ = .ok st1 ∧ runLoop (finStep C S X parts (X.shape ge)) τ st1 = .ok st2 ∧
      -- the directories
      w'.cur = none ∧ w'.disk X.out = some ps' ∧ (∀ n < parts.length, ∀ m, st2.fs (X.dir n, m) = none) ∧
      (∀ d, d ≠ X.out → (∀ n < parts.length, d ≠ X.dir n) → w'.disk d = w.disk d ∧ ∀ m, st2.fs (d, m) = st.fs (d, m)) ∧
      -- the chunks
      (∀ b e, BoxOK (List.replicate C.dims 0) (X.shape ge) X.req b e ↔ ∃ p ∈ ps', p.start = b ∧ p.stop = e) ∧ (∀ p ∈ ps', p.overlap = X.overlap) ∧
      (∀ i, InBox (List.replicate C.dims 0) (X.shape ge) i ↔ Covered ps' i) ∧ ps'.Pairwise (fun p q => DisjointBox p.start p.stop q.start q.stop) ∧
      -- the values
      (∀ p' ∈ ps', ∀ i, InBox p'.start p'.stop i → ∃ p ∈ ps, InBox p.start p.stop (addVec i X.pre) ∧ p'.val i = p.val (addVec i X.pre)) ∧
      (∀ more, AllLegal C w' more → ∃ st' outs', MState.run C S ⟨none, st2.fs⟩ more = .ok (st', outs') ∧ AllAnswer C w' more outs') ∧
      -- the padding
      (∀ init, ∃ lib, Lib.open C S st2.fs X.out init = .ok lib ∧ ∀ i, InBox (List.replicate C.dims 0) (X.shape ge) i →
        ∃ lib'' fs'' m a, chunkAt C lib st2.fs i = .ok (lib'', fs'', m, a) ∧ InBox m.start m.stop i ∧ BoxOK (List.replicate C.dims 0) (X.shape ge) X.req m.start m.stop ∧ m.overlap = X.overlap ∧
        ((m.ctype = .specified ∧ a.shape = (subVec m.stop m.start).map (· + 2 * X.overlap) ∧
          ∀ j, InBoxZ (padStart m.start X.overlap) (padEnd m.stop X.overlap) j →
            ∃ v, a.get C.vd (loc (padStart m.start X.overlap) j) = .ok v ∧ PadValue C.vd ps ge (shiftZ X.pre j) v) ∨
         (m.ctype = .all_null ∧
          ∀ j, InBoxZ (padStart m.start X.overlap) (padEnd m.stop X.overlap) j → PadValue C.vd ps ge (shiftZ X.pre j) (List.replicate C.vd 0)))) := by
  obtain ⟨st, outs, e1, e2, e3⟩ := runW_ok hC ops (WInv.init (S := S) (Z := Z) hfs) hl
  rw [hw] at e3
  obtain ⟨parts, p1, p2, p3⟩ := rechunk_core C hC hchunk hj S Z st w e3 hcur X ps hdisk ge h
  refine ⟨parts, p1, p2, fun σ τ hσ hτ => ?_⟩
  obtain ⟨st1, st2, w', ps', a1, b1, _, r⟩ := p3 σ τ hσ hτ
  exact ⟨st, outs, st1, st2, w', ps', e1, a1, b1, r⟩

/-- **C44.** Every partition is rechunked exactly once in every schedule, by the process given by its number: no partition is forgotten and none is done by two processes. -/
theorem C44_each_partition_once (J m : Nat) (hJ : 0 < J) (σ : List Ev) (h : Schedule J m σ) (j n : Nat) :
    (σ.filter fun e => e = .part j n).length = if n < m ∧ n % J = j then 1 else 0 := by
  have hlen : (σ.filter fun e => e = .part j n) = (σ.filter fun e => e.job = j).filter fun e => e = .part j n := by
    rw [List.filter_filter]
    apply List.filter_congr
    intro e _
    by_cases he : e = .part j n
    · subst he; simp [Ev.job]
    · simp [he]
  by_cases hjJ : j < J
  · rw [hlen, h.order j hjJ]
    unfold program
    rw [List.filter_cons, if_neg (by simp), List.filter_map, List.length_map, List.filter_filter]
    have : (fun k => ((fun e => decide (e = Ev.part j n)) ∘ fun n => Ev.part j n) k && decide (k % J = j)) = fun k => decide (k = n ∧ n % J = j) := by
      funext k
      show (decide (Ev.part j k = Ev.part j n) && decide (k % J = j)) = _
      rw [← Bool.decide_and]
      apply decide_eq_decide.2
      simp only [Ev.part.injEq, true_and]
      constructor
      · rintro ⟨rfl, h2⟩; exact ⟨rfl, h2⟩
      · rintro ⟨rfl, h2⟩; exact ⟨rfl, h2⟩
    rw [this]
    by_cases hn : n % J = j
    · simp only [hn, and_true]
      have : ∀ m, ((List.range m).filter fun k => k = n).length = if n < m then 1 else 0 := by
        intro m
        induction m with
        | zero => simp
        | succ m ih =>
          rw [List.range_succ, List.filter_append, List.length_append, ih]
          by_cases h1 : n < m
          · rw [if_pos h1, if_pos (by omega), List.filter_cons, if_neg (by simp; omega)]; rfl
          · by_cases h2 : m = n
            · subst h2; simp
            · rw [if_neg h1, if_neg (by omega), List.filter_cons, if_neg (by simpa using h2)]; rfl
      exact this m
    · simp [hn]
  · rw [if_neg (fun hc => hjJ (by rw [← hc.2]; exact Nat.mod_lt _ hJ)), List.length_eq_zero_iff, List.filter_eq_nil_iff]
    intro e he
    simp only [decide_eq_true_eq]
    rintro rfl
    exact hjJ (h.only _ he)

/-! ### An example -/

namespace Ex44
open Verif.Dist.Ex

/-- The array (1 2 1 2 / 3 4 3 4) of two chunks, with the first column being padding, is rechunked by two processes into chunks of 1 x 2 elements with overlap 1. -/
def X : Rech := ⟨0, 1, fun n => n + 2, 2, [1, 2], 1, [0, 1], [0, 0], fun n k => [n, k], fun a b => (a + b - 1) / b, 1⟩

def ops : List LOp := Rebuild.Ex.full ++ [.close]

theorem legal : AllLegal (Rebuild.Ex.cfgI 1) (World.init fun _ => none) ops := by
  unfold ops
  rw [AllLegal.append]
  exact ⟨Rebuild.Ex.full_legal, ⟨_, rfl⟩, trivial⟩

theorem can : CanRechunk (Rebuild.Ex.cfgI 1) Rebuild.Ex.lib.pieces [2, 4] X := by
  have h := Rebuild.Ex.canRebuild
  have hlt2 : ∀ {P : Nat → Prop}, P 0 → P 1 → ∀ d < 2, P d := fun h0 h1 d hd => by
    rcases d with _ | _ | d
    · exact h0
    · exact h1
    · omega
  refine ⟨h.hull, h.filled, h.int, rfl, rfl, hlt2 (by decide) (by decide), rfl, hlt2 (by decide) (by decide), fun b e hb => ?_, by decide, fun n k => ⟨by simp [X], by simp [X]⟩, fun n k n' k' e => ?_,
    fun n => ⟨by simp [X], by show n + 2 ≠ 1; omega, fun m e => ?_⟩, by decide, by decide, ceilDiv_rounds, by decide⟩
  · obtain ⟨l1, l2, h3⟩ := hb
    have l1 : b.length = 2 := l1
    have l2 : e.length = 2 := l2
    match b, e, l1, l2 with
    | [b0, b1], [e0, e1], _, _ =>
      have h0 := (h3 0 (by decide)).2.2.1
      have h1 := (h3 1 (by decide)).2.2.1
      have h0 : e0 ≤ 2 := h0
      have h1 : e1 ≤ 4 := h1
      exact Rebuild.Ex.fitI (n := e0 - b0 + 2 * 1) (m := e1 - b1 + 2 * 1) (by omega) (by omega)
  · have e : [n, k] = [n', k'] := e
    injection e with e1 e2
    injection e2 with e2 _
    exact ⟨e1, e2⟩
  · have e : n + 2 = m + 2 := e
    omega

/-- Two partitions; the second process starts first and is done before the first one starts. -/
def σ : List Ev := [.start 1, .part 1 1, .start 0, .part 0 0]

/-- The second process closes its array object before the merge. -/
def τ : List Fin := [.close 1, .merge, .close 0]

theorem sched : Schedule 2 2 σ := by
  refine ⟨fun j hj => ?_, fun e he => ?_⟩
  · rcases j with _ | _ | j
    · rfl
    · rfl
    · omega
  · unfold σ at he
    simp only [List.mem_cons, List.not_mem_nil, or_false] at he
    rcases he with rfl | rfl | rfl | rfl <;> decide

theorem fin : Finish 2 τ := by
  refine ⟨?_, [.close 1], [.close 0], rfl, by simp⟩
  show [Fin.close 1, .merge, .close 0].Perm [.merge, .close 0, .close 1]
  refine ((List.Perm.swap _ _ _).trans ?_)
  exact (List.Perm.cons _ (List.Perm.swap _ _ _))

/-- The program with these schedules: boxes and arrays of the chunks around an index of the result. -/
def run (i : List Nat) : Res (List Nat × List Nat × CType × Arr) :=
  (MState.run (Rebuild.Ex.cfgI 1) Tree.Ex.S ⟨none, fun _ => none⟩ ops).bind fun r =>
  (runLoop (procStep (Rebuild.Ex.cfgI 1) Tree.Ex.S X) σ ⟨r.1.fs, fun _ => none⟩).bind fun s =>
  match s.proc 0 with
  | none => .ub
  | some (_, parts) =>
    (runLoop (finStep (Rebuild.Ex.cfgI 1) Tree.Ex.S X parts [2, 3]) τ s).bind fun t =>
    (Lib.open (Rebuild.Ex.cfgI 1) Tree.Ex.S t.fs 1 [1, 1]).bind fun lib =>
    (chunkAt (Rebuild.Ex.cfgI 1) lib t.fs i).bind fun c => .ok (c.2.2.1.start, c.2.2.1.stop, c.2.2.1.ctype, c.2.2.2)

/-- The result is the array (2 1 2 / 4 3 4); the chunk `[0, 1) x [0, 2)` has the elements 2 1 surrounded by those of the input array (the column of padding, the mirror image at radius -1), the
    chunk `[1, 2) x [2, 3)` has zeros outside of the array. -/
example : run [0, 1] = .ok ([0, 0], [1, 2], .specified, ⟨[3, 4], [3, 4, 3, 4,  1, 2, 1, 2,  3, 4, 3, 4]⟩) := by decide +kernel
example : run [1, 2] = .ok ([1, 2], [2, 3], .specified, ⟨[3, 3], [1, 2, 0,  3, 4, 0,  0, 0, 0]⟩) := by decide +kernel

/-- The conditions of the theorem hold. -/
example : ∃ parts : List (List Nat × List Nat), ∀ σ τ, Schedule 2 parts.length σ → Finish 2 τ → ∃ st outs st1 st2,
    MState.run (Rebuild.Ex.cfgI 1) Tree.Ex.S ⟨none, fun _ => none⟩ ops = .ok (st, outs) ∧ runLoop (procStep (Rebuild.Ex.cfgI 1) Tree.Ex.S X) σ ⟨st.fs, fun _ => none⟩ = .ok st1 ∧
    runLoop (finStep (Rebuild.Ex.cfgI 1) Tree.Ex.S X parts [2, 3]) τ st1 = .ok st2 := by
  obtain ⟨parts, _, _, h⟩ := C44_rechunk (Rebuild.Ex.cfgI 1) (Rebuild.Ex.cfgI_ok 1) rfl (fun _ => (by show 77 < 2 ^ 32; decide)) Tree.Ex.S Tree.Ex.Z (fun _ => none) (fun _ => rfl) ops legal _ rfl rfl X
    Rebuild.Ex.lib.pieces rfl [2, 4] can
  refine ⟨parts, fun σ τ hσ hτ => ?_⟩
  obtain ⟨st, outs, st1, st2, _, _, h1, h2, h3, _⟩ := h σ τ hσ hτ
  exact ⟨st, outs, st1, st2, h1, h2, h3⟩

end Ex44

end Verif.Meep
