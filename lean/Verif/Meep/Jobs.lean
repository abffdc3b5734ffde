import Verif.Meep.Props45
/-
Model of a whole parallel calculation: one job per process (MEEPCylindricalGreensFunctionCalculator.hxx 453-612, from the construction of the storage on) and the merging
of the results (622-642).

The processes work in directories of their own; the model runs one job after the other (C102: the order of their steps does not matter). The removal of the emptied directories (640) is left out.
-/
namespace Verif.Meep
open Verif Verif.ND Verif.Dist Verif.Tree Verif.Ops

/-! ### The program -/

/-- What is particular to a job: its working directory, its output directory, the names of new files, its simulation chunks and the field there. -/
structure Job where
  work : Nat
  out : Nat
  uuid : Nat → Nat → Nat → List Nat
  cs : List SimChunk
  fld : Nat → Nat → List Nat

/-- Lines 491, 582-599, 602 (`SwapAxes<0, 2>`), 605 (`Move`), and the destructor of the storage. The model exchanges the first and the last axis. -/
def job (C : Cfg) (S : Sorter) (T L : Nat) (ds : List Nat) (N : Nat) (init : List Nat) (proc chunk : Arr) (j : Job) (st : MState) : Res MState :=
  (st.run C S [.open j.work init]).bind fun r =>
  (simulate C S T L ds j.uuid j.cs j.fld N ⟨proc, chunk, r.1⟩).bind fun q =>
  (q.st.run C S [.swap 0 ds.length, .move j.out, .close]).bind fun r => .ok r.1

/-- Lines 622-642 `merge_mpi_chunks`. -/
def mergeJobs (C : Cfg) (S : Sorter) (init : List Nat) (out : Nat) (indirs : List Nat) (st : MState) : Res MState :=
  (st.run C S (.open out init :: (indirs.map fun d => .import d true) ++ [.close])).bind fun r => .ok r.1

/-! ### Specification -/

/-- The element of the result at the index `i` (which has the time last) is the element `u` of the field of job `jb`. -/
def FieldAt (C : Cfg) (ds : List Nat) (N : Nat) (jb : Job) (i u : List Nat) : Prop :=
  ∃ n r c j, n < N ∧ jb.cs[r]? = some c ∧ j.length = ds.length ∧ InBox c.start (addVec c.start c.shape) (onFine j ds) ∧ i = swapAt (n :: j) 0 ds.length ∧
    read C.vd (mkHdr C.vd (1 :: c.shape)) (jb.fld n r) (0 :: subVec (onFine j ds) c.start) = .ok u

/-- The jobs of a calculation: their simulation chunks do not overlap, they use different names and directories, and there is nothing in these directories. -/
structure JobsOk (C : Cfg) (T L : Nat) (ds : List Nat) (N : Nat) (out : Nat) (fs : FS) (jobs : List Job) : Prop where
  sim : ∀ j ∈ jobs, SimOk C T L ds j.uuid j.cs j.fld N
  apart : jobs.Pairwise fun j j' => ∀ c ∈ j.cs, ∀ c' ∈ j'.cs, DisjointBox c.start (addVec c.start c.shape) c'.start (addVec c'.start c'.shape)
  names : jobs.Pairwise fun j j' => ∀ n r b n' r' b', j.uuid n r b ≠ j'.uuid n' r' b'
  dirs : jobs.Pairwise fun j j' => j.work ≠ j'.work ∧ j.work ≠ j'.out ∧ j.out ≠ j'.work ∧ j.out ≠ j'.out
  own : ∀ j ∈ jobs, j.work ≠ j.out ∧ j.out ≠ out ∧ out ≠ j.work
  clean : ∀ j ∈ jobs, ∀ n, fs (j.work, .chunk n) = none ∧ fs (j.out, .chunk n) = none
  index : ∀ d, fs (d, .index) = none
  vol : max T L ^ ds.length < 2 ^ 32
  total : (jobs.map fun j => N * (j.cs.map fun c => numElems c.shape).sum).sum + 1 < 2 ^ 64

/-! ### Effects on the directories -/

variable {C : Cfg} {S : Sorter} {Z : SlabSize} {T L : Nat} {ds : List Nat} {uuid : Nat → Nat → Nat → List Nat} {cs : List SimChunk} {fld : Nat → Nat → List Nat} {N : Nat}

/-- Calls that only register chunks with names in `U` or append. -/
def Writes (U : List Nat → Prop) (op : LOp) : Prop :=
  (∃ u a s e o p, U u ∧ op = .register u a s e o p) ∨ ∃ s a, op = .append s a

theorem writes_run {U : List Nat → Prop} : ∀ (ops : List LOp), (∀ op ∈ ops, Writes U op) → ∀ {w : World} {l : LibSpec}, w.cur = some l →
    (w.run C ops).disk = w.disk ∧ (∀ d, d ≠ l.dir → (w.run C ops).names d = w.names d) ∧ ∀ n, (w.run C ops).names l.dir n → w.names l.dir n ∨ U n
  | [], _, w, l, _ => ⟨rfl, fun _ _ => rfl, fun _ h => Or.inl h⟩
  | op :: ops, h, w, l, hl => by
      have hw := h op (by simp)
      have ht : ∀ op ∈ ops, Writes U op := fun op' h' => h op' (by simp [h'])
      rcases hw with ⟨u, a, s, e, o, p, hu, rfl⟩ | ⟨s, a, rfl⟩
      · have hn : w.next C (.register u a s e o p) = ⟨some ⟨l.dir, l.next + 1, l.pieces ++ [newPiece C l.next u a s e o p]⟩, w.disk,
            upd w.names l.dir fun n => w.names l.dir n ∨ n = u⟩ := by unfold World.next; rw [hl]
        obtain ⟨r1, r2, r3⟩ := writes_run ops ht (w := w.next C (.register u a s e o p)) (l := ⟨l.dir, l.next + 1, l.pieces ++ [newPiece C l.next u a s e o p]⟩) (by rw [hn])
        refine ⟨?_, ?_, ?_⟩
        · show ((w.next C _).run C ops).disk = _
          rw [r1, hn]
        · intro d hd
          show ((w.next C _).run C ops).names d = _
          rw [r2 d hd, hn]
          show upd _ _ _ d = _
          unfold upd; rw [if_neg hd]
        · intro n hn'
          have h3 := r3 n hn'
          rw [hn] at h3
          rcases h3 with h3 | h3
          · have h4 : upd w.names l.dir (fun n => w.names l.dir n ∨ n = u) l.dir n := h3
            unfold upd at h4
            rw [if_pos rfl] at h4
            rcases h4 with h4 | h4
            · exact Or.inl h4
            · exact Or.inr (h4 ▸ hu)
          · exact Or.inr h3
      · have hn : w.next C (.append s a) = { w with cur := some { l with pieces := l.pieces.map fun p => if s = p.start.set 0 (p.stop.getD 0 0) then p.extend C a else p } } := by
          unfold World.next; rw [hl]
        obtain ⟨r1, r2, r3⟩ := writes_run ops ht (w := w.next C (.append s a))
          (l := { l with pieces := l.pieces.map fun p => if s = p.start.set 0 (p.stop.getD 0 0) then p.extend C a else p }) (by rw [hn])
        refine ⟨?_, ?_, ?_⟩
        · show ((w.next C _).run C ops).disk = _
          rw [r1, hn]
        · intro d hd
          show ((w.next C _).run C ops).names d = _
          rw [r2 d hd, hn]
        · intro n hn'
          have h3 := r3 n hn'
          rw [hn] at h3
          exact h3

theorem kof_writes (n : Nat) : ∀ op ∈ (Kof C L ds uuid cs fld).all T n, Writes (fun u => ∃ n r b, u = uuid n r b) op := by
  intro op hop
  rw [all_eq_flatMap] at hop
  obtain ⟨m, _, hop⟩ := List.mem_flatMap.1 hop
  rw [kof_row] at hop
  obtain ⟨x, _, rfl⟩ := List.mem_map.1 hop
  unfold colOp
  split
  · exact Or.inl ⟨_, _, _, _, _, _, ⟨_, _, _, rfl⟩, rfl⟩
  · exact Or.inr ⟨_, _, rfl⟩

/-! ### The chunks of one job -/

/-- The chunks hold exactly the elements `F`. -/
structure Stores (ps : List Piece) (F : List Nat → List Nat → Prop) : Prop where
  has : ∀ i u, F i u → ∃ p ∈ ps, InBox p.start p.stop i ∧ p.val i = u
  only : ∀ p ∈ ps, ∀ i, InBox p.start p.stop i → ∃ u, F i u

theorem inBox_swap' {b e i : List Nat} {p q : Nat} (hb : p < b.length ∧ q < b.length) (h : InBox b e i) : InBox (swapAt b p q) (swapAt e p q) (swapAt i p q) := by
  have h1 := h.1
  have h2 := h.2.1
  refine ⟨by rw [length_swapAt, length_swapAt]; exact h1, by rw [length_swapAt, length_swapAt]; exact h2, fun d hd => ?_⟩
  rw [length_swapAt] at hd
  rw [getD_swapAt (by omega) (by omega), getD_swapAt (by omega) (by omega), getD_swapAt (by omega) (by omega)]
  apply h.2.2
  split
  · omega
  · split <;> omega

/-- What the chunks of a finished simulation hold, before and after the exchange of the axes. -/
theorem SInv.stores (hC : C.Ok) {jb : Job} (h : SimOk C T L ds jb.uuid jb.cs jb.fld N) {w : World} {l : LibSpec} {dir : Nat}
    (hs : SInv C (Kof C L ds jb.uuid jb.cs jb.fld) T N 0 dir w l) :
    Stores (l.pieces.map fun p => p.swap 0 ds.length) (FieldAt C ds N jb) ∧ (∀ p ∈ l.pieces, ∃ n r b, p.file = jb.uuid n r b) ∧
    (∀ p ∈ l.pieces, p.start.length = C.dims ∧ p.stop.length = C.dims ∧ ∃ t e, subVec p.stop p.start = t :: e ∧ 0 < t ∧ t ≤ T ∧ e.length = ds.length ∧ (∀ y ∈ e, y ≤ L) ∧ p.overlap = 0) ∧
    l.pieces.length ≤ N * (jb.cs.map fun c => numElems c.shape).sum := by
  have hdims := h.dims
  have hT := h.posT
  -- the chunks
  have hat : ∀ p ∈ l.pieces, ∃ q x, x ∈ colsOf L ds jb.cs ∧ q * T < N ∧ p.start = (q * T) :: colLo ds x ∧ p.stop = min ((q + 1) * T) N :: colHi ds x ∧ p.overlap = 0 ∧
      ∃ n r b, p.file = jb.uuid n r b := by
    intro p hp
    obtain ⟨k, hk⟩ := List.getElem?_of_mem hp
    have hlt := lt_of_get? hk
    have hm : (Kof C L ds jb.uuid jb.cs jb.fld).m = (colsOf L ds jb.cs).length := rfl
    have hpos : 0 < (colsOf L ds jb.cs).length := by
      rw [hs.len, hm] at hlt
      rcases Nat.eq_zero_or_pos (colsOf L ds jb.cs).length with h0 | h0
      · rw [h0] at hlt; simp at hlt
      · exact h0
    have hpa := hs.get k p hk
    rw [if_neg (by omega), hm] at hpa
    have hmod : k % (colsOf L ds jb.cs).length < (colsOf L ds jb.cs).length := Nat.mod_lt _ hpos
    obtain ⟨x, hx⟩ : ∃ x, (colsOf L ds jb.cs)[k % (colsOf L ds jb.cs).length]? = some x := ⟨_, List.getElem?_eq_getElem hmod⟩
    have hqlt : k / (colsOf L ds jb.cs).length * T < N := by
      have hl := hs.len
      rw [hm] at hl
      have e := div_mod_of_div (j := N) hT
      rw [hl] at hlt
      by_cases h0 : N % T = 0
      · rw [if_pos h0, Nat.add_zero] at hlt
        have h1 : k / (colsOf L ds jb.cs).length < N / T := Nat.div_lt_of_lt_mul (by rw [Nat.mul_comm]; exact hlt)
        have h2 : (k / (colsOf L ds jb.cs).length + 1) * T ≤ N / T * T := Nat.mul_le_mul_right _ h1
        rw [Nat.add_mul] at h2
        omega
      · rw [if_neg h0] at hlt
        have h1 : k / (colsOf L ds jb.cs).length < N / T + 1 := Nat.div_lt_of_lt_mul (by rw [Nat.mul_comm]; exact hlt)
        have h2 : k / (colsOf L ds jb.cs).length * T ≤ N / T * T := Nat.mul_le_mul_right _ (by omega)
        omega
    refine ⟨_, x, List.mem_of_getElem? hx, hqlt, ?_, ?_, hpa.overlap, ?_⟩
    · rw [hpa.start]; congr 1; exact atCol_some hx _ _
    · rw [hpa.stop]; congr 1; exact atCol_some hx _ _
    · have hf : p.file = jb.uuid (k / (colsOf L ds jb.cs).length * T) x.1.2 x.2.2 := by rw [hpa.file]; exact atCol_some hx _ _
      exact ⟨_, _, _, hf⟩
  have hax : ∀ p ∈ l.pieces, 0 < p.start.length ∧ ds.length < p.start.length := by
    intro p hp
    obtain ⟨q, x, hx, _, e1, _⟩ := hat p hp
    have := (h.colBox hx).1
    rw [e1, List.length_cons]
    omega
  refine ⟨⟨?_, ?_⟩, ?_, ?_, ?_⟩
  · rintro i u ⟨n, r, c, j, hn, hr, hl, hj, rfl, hu⟩
    obtain ⟨x, hx, hj', hxc⟩ := h.column hr hl hj
    obtain ⟨p, hp, hin, hval, _⟩ := hs.find h hn hx hj'
    obtain ⟨_, _, _, s4⟩ := h.colSlice hC hn hx
    obtain ⟨v, v1, v2⟩ := s4 j hj'
    rw [hxc] at v2
    rw [hu] at v2
    injection v2 with v2
    refine ⟨p.swap 0 ds.length, List.mem_map.2 ⟨p, hp, rfl⟩, inBox_swap' (hax p hp) hin, ?_⟩
    show p.val (swapAt (swapAt (n :: j) 0 ds.length) 0 ds.length) = u
    rw [swapAt_swapAt (by simp) (by simp [hl]), hval, v1, v2]
    rfl
  · intro p' hp' i hi
    obtain ⟨p, hp, rfl⟩ := List.mem_map.1 hp'
    have hi' := inBox_swap (hax p hp) hi
    obtain ⟨q, x, hx, hq, e1, e2, _⟩ := hat p hp
    rw [e1, e2] at hi'
    obtain ⟨_, _, n, j, heq, hij, hlt, hj⟩ := inBox_cons_left.1 hi'
    cases heq
    obtain ⟨b1, b2, b3, b4, _⟩ := h.colBox hx
    have hc : x.1.1 ∈ jb.cs := List.mem_of_getElem? (mem_cols hx).1
    have hl : j.length = ds.length := by rw [hj.1]; exact b1
    have hn : n < N := by omega
    obtain ⟨_, _, _, s4⟩ := h.colSlice hC hn hx
    obtain ⟨v, v1, v2⟩ := s4 j hj
    refine ⟨v, n, x.1.2, x.1.1, j, hn, (mem_cols hx).1, hl, ((h.coarse hc).2.2.2.2.1 j hl).1 (b4 j hj).1, ?_, v2⟩
    rw [← hij, swapAt_swapAt]
    · have := hi.1
      have h3 := (hax p hp).1
      have h4 : (p.swap 0 ds.length).start.length = p.start.length := length_swapAt _ _ _
      omega
    · have := hi.1
      have h3 := (hax p hp).2
      have h4 : (p.swap 0 ds.length).start.length = p.start.length := length_swapAt _ _ _
      omega
  · intro p hp
    obtain ⟨q, x, hx, _, _, _, _, hf⟩ := hat p hp
    exact hf
  · intro p hp
    obtain ⟨q, x, hx, hq, e1, e2, e3, _⟩ := hat p hp
    obtain ⟨b1, b2, b3, _⟩ := h.colBox hx
    refine ⟨by rw [e1, List.length_cons]; omega, by rw [e2, List.length_cons]; omega, min ((q + 1) * T) N - q * T, subVec (colHi ds x) (colLo ds x), ?_, ?_, ?_, ?_, ?_, e3⟩
    · rw [e1, e2, subVec_cons]
    · rw [Nat.add_mul]; omega
    · rw [Nat.add_mul]; omega
    · rw [length_subVec (by omega)]; exact b2
    · intro y hy
      obtain ⟨d, hd, rfl⟩ := List.getElem_of_mem hy
      have h1 : (subVec (colHi ds x) (colLo ds x)).getD d 0 = (subVec (colHi ds x) (colLo ds x))[d] := by
        rw [List.getD_eq_getElem?_getD, List.getElem?_eq_getElem hd]; rfl
      rw [length_subVec (by omega)] at hd
      rw [← h1, getD_subVec (by omega)]
      have := b3 d (by omega)
      omega
  · have h1 := h.colsLength
    have hm : (Kof C L ds jb.uuid jb.cs jb.fld).m = (colsOf L ds jb.cs).length := rfl
    have hl := hs.len
    rw [hm] at hl
    have e := div_mod_of_div (j := N) hT
    have h2 : (if N % T = 0 then N / T else N / T + 1) ≤ N := by
      have : N / T ≤ N / T * T := Nat.le_mul_of_pos_right _ hT
      split <;> omega
    have h3 : l.pieces.length = (if N % T = 0 then N / T else N / T + 1) * (colsOf L ds jb.cs).length := by
      rw [hl]; split <;> simp
    rw [h3]
    exact Nat.mul_le_mul h2 h1

end Verif.Meep
