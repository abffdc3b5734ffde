import Verif.Dist.Clean
import Verif.Dist.Props29
/-
C59: using a library only for reading.
-/
namespace Verif.Dist
open Verif Verif.ND Verif.Tree

/-- **C59.** Reading writes no file, whatever is read: however a library was opened, if a sequence of element accesses, region reads, shape queries and loops comes to an
    end, then all files are as they were when the library was opened; flushing or closing it afterwards can change only the index file of its directory. -/
theorem C59_reads_write_nothing (C : Cfg) (S : Sorter) (fs : FS) (dir : Nat) (init : List Nat) (reads : List LOp) (hr : ∀ op ∈ reads, op.Reads) (st : MState) (rs : List Out)
    (h : MState.run C S ⟨none, fs⟩ (.open dir init :: reads) = .ok (st, rs)) :
    st.fs = fs ∧ ∀ op, op = .close ∨ op = .flush → ∀ st' o, st.step C S op = .ok (st', o) → ∀ p, p ≠ (dir, .index) → st'.fs p = fs p := by
  simp only [MState.run] at h
  obtain ⟨r, h1, h⟩ := Res.bind_eq_ok.1 h
  obtain ⟨r', h2, h⟩ := Res.bind_eq_ok.1 h
  cases h
  unfold MState.step at h1
  obtain ⟨lib, h3, h1⟩ := Res.bind_eq_ok.1 h1
  cases h1
  obtain ⟨c1, c2, c3⟩ := open_clean h3
  obtain ⟨lib', k1, k2, k3⟩ := run_clean reads (st' := r'.1) (rs := r'.2) rfl c1 hr h2
  have hd : lib'.idx.dir = dir := k3.trans c2
  refine ⟨k2.fs, fun op hop st' o hs p hp => ?_⟩
  have hf := k2.fs
  unfold MState.step at hs
  have hset : ∀ {x : FS} {v : Option (List Nat)}, (x.set (lib'.idx.dir, .index) v) p = x p := fun {x v} => by
    unfold FS.set; rw [if_neg (by rw [hd]; exact hp)]
  rcases hop with rfl | rfl
  · simp only [k1] at hs
    obtain ⟨fs1, h5, hs⟩ := Res.bind_eq_ok.1 hs
    cases hs
    unfold Lib.destroy at h5
    obtain ⟨q, h6, h5⟩ := Res.bind_eq_ok.1 h5
    unfold Index.flush at h5
    obtain ⟨ms, _, h5⟩ := Res.bind_eq_ok.1 h5
    cases h5
    show (q.2.set _ _) p = _
    rw [hset, (flush_clean k2.clean h6).fs, hf]
  · simp only [k1] at hs
    obtain ⟨q, h5, hs⟩ := Res.bind_eq_ok.1 hs
    cases hs
    unfold Lib.flush at h5
    obtain ⟨fs1, h7, h5⟩ := Res.bind_eq_ok.1 h5
    obtain ⟨q, h6, h5⟩ := Res.bind_eq_ok.1 h5
    cases h5
    unfold Index.flush at h7
    obtain ⟨ms, _, h7⟩ := Res.bind_eq_ok.1 h7
    cases h7
    show q.2 p = _
    rw [(flush_clean k2.clean h6).fs, hset, hf]

/-- **C59.** After any allowed history that leaves no library open, opening a library that was closed before, reading from it in any way and closing it again succeeds and
    leaves every file of every directory, byte by byte, as it was (the index file is written again with the same contents). -/
theorem C59_read_session_restores_files (C : Cfg) (hC : C.Ok) (S : Sorter) (Z : SlabSize) (fs : FS) (hfs : ∀ d, fs (d, .index) = none) (ops : List LOp) (dir : Nat) (init : List Nat)
    (ps : List Piece) (hd : ((World.init fs).run C ops).disk dir = some ps) (reads : List LOp) (hr : ∀ op ∈ reads, op.Reads)
    (hl : AllLegal C (World.init fs) (ops ++ (.open dir init :: reads) ++ [.close])) :
    ∃ st₀ rs₀ st₁ rs₁ st₂ rs₂, MState.run C S ⟨none, fs⟩ ops = .ok (st₀, rs₀) ∧ MState.run C S ⟨none, fs⟩ (ops ++ (.open dir init :: reads)) = .ok (st₁, rs₁) ∧
      MState.run C S ⟨none, fs⟩ (ops ++ (.open dir init :: reads) ++ [.close]) = .ok (st₂, rs₂) ∧ st₁.fs = st₀.fs ∧ st₂.fs = st₀.fs := by
  rw [AllLegal.append] at hl
  obtain ⟨hl1, hl2, _⟩ := hl
  have hl1' := hl1
  rw [AllLegal.append] at hl1
  obtain ⟨st₀, rs₀, a1, _, a3⟩ := runW_ok (S := S) (Z := Z) hC ops (WInv.init hfs) hl1.1
  obtain ⟨st₁, rs₁, b1, _, b3⟩ := runW_ok (S := S) (Z := Z) hC _ (WInv.init hfs) hl1'
  obtain ⟨st₂, o, c1, _, c3⟩ := stepW_ok hC b3 .close hl2
  -- the state before the session
  obtain ⟨cs, d1, d2, _⟩ := a3.disk dir ps hd
  have hcl : st₀.lib = none := a3.closed hl1.2.1.1
  have hst : st₀ = ⟨none, st₀.fs⟩ := by cases st₀; simp only at hcl; rw [hcl]
  -- the session
  have b1' := b1
  rw [MState.run_append C S ops _ _ _ _ a1] at b1
  obtain ⟨r, e1, e2⟩ := Res.bind_eq_ok.1 b1
  cases e2
  rw [hst] at e1
  have f := C59_reads_write_nothing C S st₀.fs dir init reads hr r.1 r.2 e1
  have hfs1 := f.1
  -- closing
  have hw : ((World.init fs).run C (ops ++ (.open dir init :: reads))).cur = some ⟨dir, 0, ps⟩ := by
    rw [World.run_append]
    show ((((World.init fs).run C ops).next C (.open dir init)).run C reads).cur = _
    rw [run_reads hr]
    show some (⟨dir, 0, (((World.init fs).run C ops).disk dir).getD []⟩ : LibSpec) = _
    rw [hd]; rfl
  have hdisk : (((World.init fs).run C (ops ++ (.open dir init :: reads))).next C .close).disk dir = some ps := by
    unfold World.next
    rw [hw]
    show upd _ dir _ dir = _
    unfold upd; rw [if_pos rfl]
  obtain ⟨cs', g1, g2, _⟩ := c3.disk dir ps hdisk
  refine ⟨st₀, rs₀, r.1, rs₀ ++ r.2, st₂, rs₀ ++ r.2 ++ [o], a1, b1', ?_, hfs1, ?_⟩
  · rw [MState.run_append C S _ [.close] _ _ _ b1']
    simp only [MState.run, c1, Res.ok_bind]
  · funext p
    by_cases hp : p = (dir, .index)
    · subst hp
      rw [g1.index, d1.index, Rep.metas g1.chunky d1.chunky g2 d2]
    · exact f.2 .close (Or.inl rfl) st₂ o c1 p hp

/-! ### A concrete session: two chunks (one of them only a record in the index) are read in three ways -/

/-- The reads of the session. -/
def Ex.reads : List LOp := [.get [1, 1], .get [2, 1], .loop [1, 0] [4, 3]]

theorem Ex.reads_legal : AllLegal (Ex.cfg 1) (World.init fun _ => none) (Ex.hist.take 8 ++ (.open 0 [1, 1] :: Ex.reads) ++ [.close]) := by
  have h := Ex.hist_take 10
  have e : Ex.hist.take 8 ++ (.open 0 [1, 1] :: Ex.reads) ++ [.close] = Ex.hist.take 10 ++ [.get [2, 1], .loop [1, 0] [4, 3], .close] := rfl
  rw [e, AllLegal.append]
  exact ⟨h, ⟨_, _, rfl, List.mem_cons_self, inBox2 (n := 3) (m := 2) (by decide) (by decide), fun _ => rfl⟩, ⟨_, rfl, ⟨rfl, rfl, fun d hd => by
      have hd : d < 2 := hd
      rcases d with _ | _ | d
      · decide
      · decide
      · omega⟩, fun p hp => by
      rcases List.mem_cons.1 hp with rfl | hp
      · exact fun _ => rfl
      · rcases List.mem_cons.1 hp with rfl | hp
        · exact fun _ => rfl
        · cases hp⟩, ⟨_, rfl⟩, trivial⟩

example : ∃ st₀ rs₀ st₁ rs₁ st₂ rs₂, MState.run (Ex.cfg 1) Tree.Ex.S ⟨none, fun _ => none⟩ (Ex.hist.take 8) = .ok (st₀, rs₀) ∧
    MState.run (Ex.cfg 1) Tree.Ex.S ⟨none, fun _ => none⟩ (Ex.hist.take 8 ++ (.open 0 [1, 1] :: Ex.reads)) = .ok (st₁, rs₁) ∧
    MState.run (Ex.cfg 1) Tree.Ex.S ⟨none, fun _ => none⟩ (Ex.hist.take 8 ++ (.open 0 [1, 1] :: Ex.reads) ++ [.close]) = .ok (st₂, rs₂) ∧ st₁.fs = st₀.fs ∧ st₂.fs = st₀.fs :=
  C59_read_session_restores_files (Ex.cfg 1) (Ex.cfg_ok 1) Tree.Ex.S Tree.Ex.Z _ (fun _ => rfl) (Ex.hist.take 8) 0 [1, 1] _ rfl Ex.reads
    (fun op h => by
      rcases List.mem_cons.1 h with rfl | h
      · trivial
      · rcases List.mem_cons.1 h with rfl | h
        · trivial
        · rcases List.mem_cons.1 h with rfl | h
          · trivial
          · cases h) Ex.reads_legal

end Verif.Dist
