import Verif.Dist.Props28
/-
Concrete histories for C28-C31 and C47, and the counterexamples: identifiers after reopening (C29, C47), regions that are not covered and padded
zero chunks (C30), slices behind a zero chunk (C31), crashes during a flush (C48).
-/
namespace Verif.Dist
open Verif Verif.ND Verif.Tree Verif.Bytes Verif.Stream Verif.NullSup

deriving instance DecidableEq for Out

/-- What a run returned, without the final state. -/
def outs : Res (MState × List Out) → Res (List Out)
  | .ok r => .ok r.2
  | .abort => .abort
  | .throw => .throw
  | .ub => .ub
  | .diverge => .diverge

/-! ### A concrete allowed history -/

namespace Ex

/-- Two boxes are separated along one axis. -/
def Sep (b e b' e' : List Nat) : Prop := ∃ d < b'.length, e.getD d 0 ≤ b'.getD d 0 ∨ e'.getD d 0 ≤ b.getD d 0

theorem Sep.disjoint {b e b' e' : List Nat} (h : Sep b e b' e') : DisjointBox b e b' e' := by
  obtain ⟨d, hd, h⟩ := h
  intro i hi
  have h1 := hi.2.1
  have a := hi.1.2.2 d (by omega)
  have b := hi.2.2.2 d (by omega)
  omega

theorem canRegister {size : Nat} {l : LibSpec} {uuid : List Nat} {n m x y : Nat} {b : List Nat} {opt : Bool} (hn : 0 < n ∧ n < 1000) (hm : 0 < m ∧ m ≤ 8)
    (hb : b.length = n * m) (hbits : ∀ w ∈ b, w < 2 ^ 32) (hx : x < 1000) (hy : y < 1000) (hu : uuid ≠ [] ∧ uuid.length < 2 ^ 64)
    (hp : ∀ p ∈ l.pieces, Sep p.start p.stop [x, y] [x + n, y + m] ∧ p.file ≠ uuid ∧ p.id ≠ l.next) (hnx : l.next < 1000) :
    CanRegister (cfg size) l uuid ⟨[n, m], b⟩ [x, y] [x + n, y + m] 0 opt := by
  refine ⟨⟨fit hn.2 hm.2, ?_, hbits⟩, rfl, rfl, ?_, by decide, ?_, fun p h => (hp p h).1.disjoint, ⟨hu.1, hu.2, fun p h => (hp p h).2.1⟩, fun _ _ => Or.inl rfl,
    fun p h => (hp p h).2.2, by omega⟩
  · show b.length = volume 1 [n, m]
    rw [volume_cons, hb]; simp [prod]
  · intro d hd
    have hd : d < 2 := hd
    rcases d with _ | _ | d
    · show x < x + n ∧ x + n < 2 ^ 62; omega
    · show y < y + m ∧ y + m < 2 ^ 62; omega
    · omega
  · show [n, m] = [x + n - x + 2 * 0, y + m - y + 2 * 0]
    congr 1
    · omega
    · congr 1; omega

/-- A slice `[1, 2]`. -/
theorem canAppend {size : Nat} {l : LibSpec} {k : Nat} {p : Piece} {x y n : Nat} (h : l.pieces[k]? = some p) (hf : p.file ≠ []) (ho : p.overlap = 0)
    (h1 : p.start = [x, y]) (h2 : p.stop = [x + n, y + 2]) (hx : x < 100) (hn : n < 100)
    (hs : ∀ j p', l.pieces[j]? = some p' → j ≠ k → Sep p'.start p'.stop [x, y] [x + n + 1, y + 2]) :
    CanAppend (cfg size) l k p [x + n, y] s0 := by
  have e : subVec p.stop p.start = [n, 2] := by
    rw [h1, h2]; show [x + n - x, y + 2 - y] = _
    congr 1
    · omega
    · congr 1; omega
  refine ⟨h, hf, ho, by rw [h1, h2]; rfl, s0_ok size, by rw [e]; rfl, by rw [e]; exact fit (n := n + 1) (by omega) (by decide), by rw [h2]; show x + n + 1 < _; omega,
    fun j p' hj hjk => ?_⟩
  rw [h1, h2]
  exact (hs j p' hj hjk).disjoint

theorem inBox2 {x y n m i j : Nat} (h : x ≤ i ∧ i < n) (h' : y ≤ j ∧ j < m) : InBox [x, y] [n, m] [i, j] := by
  refine ⟨rfl, rfl, fun d hd => ?_⟩
  have hd : d < 2 := hd
  rcases d with _ | _ | d
  · exact h
  · exact h'
  · omega

/-- Two libraries; the second one imports the first one.  Chunks in a file, a zero chunk, a slice, element and region reads, axes swapped, a library
    moved to another directory. -/
def hist : List LOp :=
  [.open 0 [1, 1], .register [65] a0 [0, 0] [2, 2] 0 false, .register [66] z0 [0, 2] [1, 4] 0 true, .append [2, 0] s0, .get [2, 1],
   .fill [3, 3] [0, 0] (mkHdr 1 [3, 3]) [9, 9, 9, 9, 9, 9, 9, 9, 9] [1, 1] [3, 3] [0, 1], .flush, .close, .open 0 [1, 1], .get [1, 1], .swap 0 1, .get [1, 2], .move 5, .get [1, 2],
   .close, .open 1 [1, 1], .register [67] a0 [10, 0] [12, 2] 0 false, .import 5 false, .get [1, 2]]

theorem hist_legal : AllLegal (cfg 1) (World.init fun _ => none) hist := by
  refine ⟨⟨rfl, by decide⟩, ⟨_, rfl, canRegister (n := 2) (m := 2) (x := 0) (y := 0) (by decide) (by decide) rfl (by decide) (by decide) (by decide) (by decide)
      (fun p hp => by cases hp) (by decide)⟩,
    ⟨_, rfl, canRegister (n := 1) (m := 2) (x := 0) (y := 2) (by decide) (by decide) rfl (by decide) (by decide) (by decide) (by decide)
      (fun p hp => ?_) (by decide)⟩,
    ⟨_, 0, _, rfl, canAppend (x := 0) (y := 0) (n := 2) rfl (by decide) rfl rfl rfl (by decide) (by decide) (fun j p' hj hjk => ?_)⟩,
    ⟨_, _, rfl, List.mem_cons_self, inBox2 (n := 3) (m := 2) (by decide) (by decide), fun _ => rfl⟩,
    ⟨_, rfl, ⟨by unfold Small; decide, .own, rfl, rfl, ?_, rfl, ?_⟩, rfl⟩,
    ⟨_, rfl⟩, ⟨_, rfl⟩, ⟨rfl, by decide⟩,
    ⟨_, _, rfl, List.mem_cons_self, inBox2 (n := 3) (m := 2) (by decide) (by decide), fun _ => rfl⟩,
    ⟨_, rfl, by decide, by decide, fun p hp => ?_⟩,
    ⟨_, _, rfl, List.mem_cons_self, inBox2 (n := 2) (m := 3) (by decide) (by decide), fun _ => rfl⟩,
    ⟨_, rfl, by decide, rfl⟩,
    ⟨_, _, rfl, List.mem_cons_self, inBox2 (n := 2) (m := 3) (by decide) (by decide), fun _ => rfl⟩,
    ⟨_, rfl⟩, ⟨rfl, by decide⟩,
    ⟨_, rfl, canRegister (n := 2) (m := 2) (x := 10) (y := 0) (by decide) (by decide) rfl (by decide) (by decide) (by decide) (by decide)
      (fun p hp => by cases hp) (by decide)⟩,
    ⟨_, _, rfl, ⟨by decide, rfl, fun p hp => ?_, by decide, fun p hp p' hp' => ?_, fun p hp _ => ?_⟩⟩,
    ⟨_, _, rfl, List.mem_cons_of_mem _ List.mem_cons_self, inBox2 (n := 2) (m := 3) (by decide) (by decide), fun _ => rfl⟩, trivial⟩
  · rcases List.mem_cons.1 hp with rfl | hp
    · exact ⟨⟨1, by decide, Or.inl (by decide)⟩, by decide, by decide⟩
    · cases hp
  · rcases j with _ | _ | j
    · exact absurd rfl hjk
    · cases hj; exact ⟨1, by decide, Or.inr (by decide)⟩
    · cases hj
  · intro d hd
    have hd : d < 2 := hd
    rcases d with _ | _ | d
    · decide
    · decide
    · omega
  · refine ⟨rfl, rfl, fun d hd => ?_⟩
    have hd : d < 2 := hd
    rcases d with _ | _ | d
    · decide
    · decide
    · omega
  · rcases List.mem_cons.1 hp with rfl | hp
    · exact fit (n := 2) (m := 3) (by decide) (by decide)
    · rcases List.mem_cons.1 hp with rfl | hp
      · exact fit (n := 2) (m := 1) (by decide) (by decide)
      · cases hp
  · rcases List.mem_cons.1 hp with rfl | hp
    · decide
    · cases hp
  · rcases List.mem_cons.1 hp with rfl | hp
    · rcases List.mem_cons.1 hp' with rfl | hp'
      · exact Sep.disjoint ⟨0, by decide, Or.inr (by decide)⟩
      · rcases List.mem_cons.1 hp' with rfl | hp'
        · exact Sep.disjoint ⟨0, by decide, Or.inr (by decide)⟩
        · cases hp'
    · cases hp
  · rcases List.mem_cons.1 hp with rfl | hp
    · intro h
      rcases h with h | h
      · exact h rfl
      · rcases h with h | h
        · rcases h with h | h
          · exact h rfl
          · cases h
        · cases h
    · cases hp

/-- The results of this history, computed by the model. -/
example : outs (MState.run (cfg 1) Tree.Ex.S ⟨none, fun _ => none⟩ hist) =
    .ok [.unit, .unit, .unit, .unit, .vec [6], .buf [9, 4, 9, 9, 6, 9, 9, 9, 9], .unit, .unit, .unit, .vec [4], .unit, .vec [6], .unit, .vec [6],
      .unit, .unit, .unit, .unit, .vec [6]] := by decide +kernel

end Ex

example : ∃ st rs, MState.run (Ex.cfg 1) Tree.Ex.S ⟨none, fun _ => none⟩ Ex.hist = .ok (st, rs) ∧
    AllAnswer (Ex.cfg 1) (World.init fun _ => none) Ex.hist rs :=
  C30_library_history_partial _ (Ex.cfg_ok 1) Tree.Ex.S Tree.Ex.Z _ (fun _ => rfl) _ (Ex.hist_legal)

/-- C31 applies to the slice in this history. -/
example : ∃ u v, Ex.s0.get 1 (subVec [2, 1] [2, 0]) = .ok u ∧ readsAfter (Ex.cfg 1) Tree.Ex.S (fun _ => none) (Ex.hist.take 4) [2, 1] v ∧ VEq u v := by
  have hl : AllLegal (Ex.cfg 1) (World.init fun _ => none) (Ex.hist.take 3 ++ [.append [2, 0] Ex.s0]) :=
    (AllLegal.append (ops := Ex.hist.take 4) (ops' := Ex.hist.drop 4).1 Ex.hist_legal).1
  exact (C31_append_slice_partial (Ex.cfg 1) (Ex.cfg_ok 1) Tree.Ex.S Tree.Ex.Z _ (fun _ => rfl) (Ex.hist.take 3) [2, 0] Ex.s0 hl _ rfl).2 [2, 1]
    (Ex.inBox2 (by decide) (by decide))

theorem Ex.hist_take (n : Nat) : AllLegal (Ex.cfg 1) (World.init fun _ => none) (Ex.hist.take n) := by
  have h := Ex.hist_legal
  rw [← List.take_append_drop n Ex.hist, AllLegal.append] at h
  exact h.1

/-- C28 applies after the first six calls: two chunks, one of them zero, with a slice. -/
example : ∃ st rs lib lib₁ fs₁ lib₂ ms, MState.run (Ex.cfg 1) Tree.Ex.S ⟨none, fun _ => none⟩ (Ex.hist.take 6) = .ok (st, rs) ∧ st.lib = some lib ∧
    lib.flush (Ex.cfg 1) st.fs = .ok (lib₁, fs₁) ∧ Lib.open (Ex.cfg 1) Tree.Ex.S fs₁ 0 [1, 1] = .ok lib₂ ∧ lib₁.idx.all = .ok ms ∧ lib₂.idx.all = .ok ms ∧ ms.length = 2 := by
  obtain ⟨st, rs, lib, lib₁, fs₁, lib₂, ms, h1, h2, h3, h4, h5, h6, h7, _⟩ :=
    C28_flush_reopen_partial (Ex.cfg 1) (Ex.cfg_ok 1) Tree.Ex.S Tree.Ex.Z _ (fun _ => rfl) (Ex.hist.take 6) (Ex.hist_take 6) _ rfl (by decide) [1, 1]
  exact ⟨st, rs, lib, lib₁, fs₁, lib₂, ms, h1, h2, h3, h4, h5, h6, h7⟩

/-- C47 applies to the import in this history: the imported element at (1, 2). -/
example : ∃ p v, InBox p.start p.stop [1, 2] ∧ readsAfter (Ex.cfg 1) Tree.Ex.S (fun _ => none) (Ex.hist.take 17 ++ [.import 5 false]) [1, 2] v ∧ VEq (Piece.val p [1, 2]) v := by
  have h := (C47_import_partial (Ex.cfg 1) (Ex.cfg_ok 1) Tree.Ex.S Tree.Ex.Z _ (fun _ => rfl) (Ex.hist.take 17) 5 false _ _ rfl rfl (Ex.hist_take 18)).1 _
    (List.mem_append_right _ List.mem_cons_self) (fun _ => rfl) [1, 2] (Ex.inBox2 (n := 2) (m := 3) (by decide) (by decide))
  obtain ⟨v, h1, h2⟩ := h
  exact ⟨_, v, Ex.inBox2 (n := 2) (m := 3) (by decide) (by decide), h1, h2⟩

/-- C29 applies to the part of this history before the library is reopened: two chunks with identifiers below the counter. -/
example : ∃ l, ((World.init fun _ => none).run (Ex.cfg 1) (Ex.hist.take 7)).cur = some l ∧ l.pieces.length = 2 ∧ (∀ p ∈ l.pieces, p.id < l.next) ∧ (l.pieces.map Piece.id).Nodup :=
  ⟨_, rfl, rfl, C29_identifiers_fresh_partial (Ex.cfg 1) (Ex.hist.take 7) _ (Ex.hist_take 7) ⟨rfl, trivial, trivial, trivial, trivial, trivial, trivial, trivial⟩
    (fun l e => by cases e) _ rfl⟩

/-! ### C29, C47: identifiers after reopening -/

/-- **C29, negation.** A chunk registered in a reopened library gets an identifier that is in use: after reopening a library with the chunk
    `[[1, 2], [3, 4]]` at (0, 0) and registering `[[5, 6], [7, 8]]` at (2, 0), the element at (0, 1) reads 6 instead of 2
    (DistributedNDVecArray.hxx 499: the counter starts at 0; 525-541). -/
theorem C29_reopened_library_mixes_chunks :
    outs (MState.run (Ex.cfg 4) Tree.Ex.S ⟨none, fun _ => none⟩
      [.open 0 [1, 1], .register [65] ⟨[2, 2], [1, 2, 3, 4]⟩ [0, 0] [2, 2] 0 false, .get [0, 1], .close, .open 0 [1, 1],
        .register [66] ⟨[2, 2], [5, 6, 7, 8]⟩ [2, 0] [4, 2] 0 false, .get [0, 1]]) =
      .ok [.unit, .unit, .vec [2], .unit, .unit, .unit, .vec [6]] := by decide +kernel

/-- **C29, negation.** If the old chunk has been read before, registering the new one fails: the identifier is already in the cache
    (DistributedNDVecArray.hxx 309). -/
theorem C29_reopened_library_aborts :
    outs (MState.run (Ex.cfg 4) Tree.Ex.S ⟨none, fun _ => none⟩
      [.open 0 [1, 1], .register [65] ⟨[2, 2], [1, 2, 3, 4]⟩ [0, 0] [2, 2] 0 false, .close, .open 0 [1, 1], .get [0, 1],
        .register [66] ⟨[2, 2], [5, 6, 7, 8]⟩ [2, 0] [4, 2] 0 false]) = .abort := by decide +kernel

/-- **C47, negation.** Importing into a reopened library gives the imported chunks identifiers that are in use: the imported element at (2, 0) reads
    the element of the old chunk (1 instead of 5). -/
theorem C47_import_after_reopen_mixes_chunks :
    outs (MState.run (Ex.cfg 4) Tree.Ex.S ⟨none, fun _ => none⟩
      [.open 1 [1, 1], .register [66] ⟨[2, 2], [5, 6, 7, 8]⟩ [2, 0] [4, 2] 0 false, .close,
        .open 0 [1, 1], .register [65] ⟨[2, 2], [1, 2, 3, 4]⟩ [0, 0] [2, 2] 0 false, .close,
        .open 0 [1, 1], .import 1 false, .get [0, 0], .get [2, 0]]) =
      .ok [.unit, .unit, .unit, .unit, .unit, .unit, .unit, .unit, .vec [1], .vec [1]] := by decide +kernel

/-! ### C30: reads -/

/-- **C30, negation.** Filling an array from a region that is not covered by chunks is not detected: the elements of the target that should receive
    the missing values are left as they were (9). -/
theorem C30_uncovered_not_detected :
    outs (MState.run (Ex.cfg 4) Tree.Ex.S ⟨none, fun _ => none⟩
      [.open 0 [1, 1], .register [65] ⟨[2, 2], [1, 2, 3, 4]⟩ [0, 0] [2, 2] 0 false,
        .fill [2, 3] [0, 0] (mkHdr 1 [2, 3]) [9, 9, 9, 9, 9, 9] [0, 0] [2, 3] [0, 0]]) =
      .ok [.unit, .unit, .buf [1, 2, 9, 3, 4, 9]] := by decide +kernel

/-- **C30 and C28, negation.** A padded chunk of zeros that is stored as "all zero" loses its padding when it is read back (DistributedNDVecArray.hxx
    290-295), so that elements near its end cannot be read any more: here a chunk of shape (1, 2) with padding 1, first read from the cache and then
    again after a flush. -/
theorem C30_padded_null_aborts :
    outs (MState.run (Ex.cfg 4) Tree.Ex.S ⟨none, fun _ => none⟩
      [.open 0 [1, 1], .register [65] ⟨[3, 4], List.replicate 12 0⟩ [1, 1] [2, 3] 1 true, .get [1, 2]]) = .ok [.unit, .unit, .vec [0]] ∧
    outs (MState.run (Ex.cfg 4) Tree.Ex.S ⟨none, fun _ => none⟩
      [.open 0 [1, 1], .register [65] ⟨[3, 4], List.replicate 12 0⟩ [1, 1] [2, 3] 1 true, .flush, .get [1, 2]]) = .abort := by decide +kernel

/-- **C30, negation.** Reading an index that no chunk covers dereferences a null pointer (DistributedNDVecArray.hxx 913-925). -/
theorem C30_get_uncovered_is_ub :
    outs (MState.run (Ex.cfg 4) Tree.Ex.S ⟨none, fun _ => none⟩
      [.open 0 [1, 1], .register [65] ⟨[2, 2], [1, 2, 3, 4]⟩ [0, 0] [2, 2] 0 false, .get [0, 2]]) = .ub := by decide +kernel

/-! ### C31: slices -/

/-- **C31, negation.** A slice cannot be appended behind a chunk that is stored as "all zero" (DistributedNDVecArray.hxx 876-888). -/
theorem C31_append_to_null_throws :
    outs (MState.run (Ex.cfg 4) Tree.Ex.S ⟨none, fun _ => none⟩
      [.open 0 [1, 1], .register [65] ⟨[2, 2], [0, 0, 0, 0]⟩ [0, 0] [2, 2] 0 true, .append [2, 0] ⟨[1, 2], [5, 6]⟩]) = .throw := by decide +kernel

/-- **C31, negation.** A slice that starts at index 0, or does not touch any chunk, is not rejected: a null pointer is dereferenced
    (DistributedNDVecArray.hxx 866-872). -/
theorem C31_append_to_nothing_is_ub :
    outs (MState.run (Ex.cfg 4) Tree.Ex.S ⟨none, fun _ => none⟩
      [.open 0 [1, 1], .register [65] ⟨[2, 2], [1, 2, 3, 4]⟩ [2, 0] [4, 2] 0 false, .append [0, 0] ⟨[1, 2], [5, 6]⟩]) = .ub ∧
    outs (MState.run (Ex.cfg 4) Tree.Ex.S ⟨none, fun _ => none⟩
      [.open 0 [1, 1], .register [65] ⟨[2, 2], [1, 2, 3, 4]⟩ [2, 0] [4, 2] 0 false, .append [5, 0] ⟨[1, 2], [5, 6]⟩]) = .ub := by decide +kernel

end Verif.Dist
