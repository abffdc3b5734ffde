import Verif.Dist.Props59
import Verif.Rebuild.Model
/-
Reading does not depend on the streamer chunk size of the library object: a library can be read with the default one (`INFTY` in all directions, ChunkLibrary's short
constructor, DistributedNDVecArray.hxx 811-815), whatever it was written with.
-/
namespace Verif.Dist
open Verif Verif.ND Verif.Tree

variable {C : Cfg} {S : Sorter} {X : List Nat}

theorem bind_congr_ok {α β : Type} {x : Res α} {f g : α → Res β} (h : ∀ a, x = .ok a → f a = g a) : x.bind f = x.bind g := by
  cases x with
  | ok a => exact h a rfl
  | _ => rfl

theorem runLoop_congr_clean {α β : Type} {f g : α → CC × FS × β → Res (CC × FS × β)}
    (hf : ∀ a q q', q.1.Clean → f a q = .ok q' → Untouched q.1 q.2.1 q'.1 q'.2.1) (hg : ∀ a q, q.1.Clean → g a q = f a q) :
    ∀ (l : List α) {q : CC × FS × β}, q.1.Clean → runLoop g l q = runLoop f l q
  | [], q, hc => rfl
  | a :: l, q, hc => by
      show (g a q).bind _ = (f a q).bind _
      rw [hg a q hc]
      exact bind_congr_ok fun q1 h1 => runLoop_congr_clean hf hg l (hf a q q1 hc h1).clean

theorem descope_chunk {dir : Nat} {fs : FS} {e : Entry} (he : e.stat = .nothing) : descope { C with chunk := X } dir fs e = descope C dir fs e := by
  unfold descope
  rw [he]

theorem makeRoom_chunk {cc : CC} {fs : FS} (hc : cc.Clean) : makeRoom { C with chunk := X } cc fs = makeRoom C cc fs := by
  unfold makeRoom
  split
  · rfl
  · refine bind_congr_ok fun r hr => ?_
    rw [descope_chunk (by rw [evictOldest_payload hr]; exact hc _)]

theorem deserInto_chunk {cc : CC} {fs : FS} {m : Meta} (hc : cc.Clean) : deserInto { C with chunk := X } cc fs m = deserInto C cc fs m := by
  unfold deserInto
  rw [makeRoom_chunk hc]
  rfl

theorem retrieve_chunk {cc : CC} {fs : FS} {m : Meta} (hc : cc.Clean) : retrieve { C with chunk := X } cc fs m = retrieve C cc fs m := by
  unfold retrieve
  rw [deserInto_chunk hc]
  rfl

theorem get_chunk {lib : Lib} {fs : FS} {i : List Nat} (hc : lib.cc.Clean) : lib.get { C with chunk := X } fs i = lib.get C fs i := by
  unfold Lib.get
  refine bind_congr_ok fun r hr => ?_
  split
  · rfl
  · rw [retrieve_chunk hc]

theorem fillArray_chunk {lib : Lib} {fs : FS} {hd : Hdr} {buf lo hi out : List Nat} (hc : lib.cc.Clean) :
    lib.fillArray { C with chunk := X } fs hd buf lo hi out = lib.fillArray C fs hd buf lo hi out := by
  unfold Lib.fillArray
  refine bind_congr_ok fun _ _ => bind_congr_ok fun _ _ => bind_congr_ok fun ms _ => ?_
  rw [runLoop_congr_clean (f := fillOne C hd lo hi out) (g := fillOne { C with chunk := X } hd lo hi out) _ _ ms hc]
  · intro m q q' hc h
    unfold fillOne at h
    simp only at h
    split at h
    · obtain ⟨b, h1, h⟩ := Res.bind_eq_ok.1 h
      cases h
      exact .refl hc
    · obtain ⟨r, h1, h⟩ := Res.bind_eq_ok.1 h
      obtain ⟨b, h2, h⟩ := Res.bind_eq_ok.1 h
      cases h
      exact retrieve_clean hc h1
  · intro m q hc
    unfold fillOne
    simp only
    split
    · rfl
    · rw [retrieve_chunk hc]

theorem loopRange_chunk {lib : Lib} {fs : FS} {lo hi : List Nat} (hc : lib.cc.Clean) : lib.indexLoopRange { C with chunk := X } fs lo hi = lib.indexLoopRange C fs lo hi := by
  unfold Lib.indexLoopRange
  refine bind_congr_ok fun ms _ => ?_
  rw [runLoop_congr_clean (f := loopOne C lo hi) (g := loopOne { C with chunk := X } lo hi) _ _ ms hc]
  · intro m q q' hc h
    unfold loopOne at h
    obtain ⟨r, h1, h⟩ := Res.bind_eq_ok.1 h
    obtain ⟨b, h2, h⟩ := Res.bind_eq_ok.1 h
    cases h
    exact retrieve_clean hc h1
  · intro m q hc
    unfold loopOne
    rw [retrieve_chunk hc]

theorem flushOne_chunk {k : Nat} {q : CC × FS} (hc : q.1.Clean) : flushOne { C with chunk := X } k q = flushOne C k q := by
  unfold flushOne
  refine bind_congr_ok fun r hr => ?_
  rw [descope_chunk (by rw [evict_payload hr]; exact hc _)]

theorem flush_chunk {cc : CC} {fs : FS} (hc : cc.Clean) : flush { C with chunk := X } cc fs = flush C cc fs := by
  unfold flush
  suffices H : ∀ (l : List Nat) {q : CC × FS}, q.1.Clean → runLoop (flushOne { C with chunk := X }) l q = runLoop (flushOne C) l q from H _ hc
  intro l
  induction l with
  | nil => intro q _; rfl
  | cons a l ih =>
    intro q hc
    show (flushOne { C with chunk := X } a q).bind _ = (flushOne C a q).bind _
    rw [flushOne_chunk hc]
    exact bind_congr_ok fun q1 h1 => ih (flushOne_clean hc h1).clean

theorem destroy_chunk {lib : Lib} {fs : FS} (hc : lib.cc.Clean) : lib.destroy { C with chunk := X } fs = lib.destroy C fs := by
  unfold Lib.destroy
  rw [flush_chunk hc]
  rfl

theorem flushLib_chunk {lib : Lib} {fs : FS} (hc : lib.cc.Clean) : lib.flush { C with chunk := X } fs = lib.flush C fs := by
  unfold Lib.flush
  have e : lib.idx.flush { C with chunk := X } fs = lib.idx.flush C fs := rfl
  rw [e]
  refine bind_congr_ok fun fs1 _ => ?_
  rw [flush_chunk hc]

theorem open_chunk {fs : FS} {dir : Nat} {init : List Nat} : Lib.open { C with chunk := X } S fs dir init = Lib.open C S fs dir init := rfl

theorem chunkAt_chunk {lib : Lib} {fs : FS} {i : List Nat} (hc : lib.cc.Clean) : Rebuild.chunkAt { C with chunk := X } lib fs i = Rebuild.chunkAt C lib fs i := by
  unfold Rebuild.chunkAt
  refine bind_congr_ok fun r _ => ?_
  split
  · rfl
  · rw [retrieve_chunk hc]

theorem step_chunk {st : MState} {lib : Lib} (hl : st.lib = some lib) (hc : lib.cc.Clean) {op : LOp} (ho : op.Reads ∨ op = .flush ∨ op = .close) :
    st.step { C with chunk := X } S op = st.step C S op := by
  unfold MState.step
  rcases ho with ho | rfl | rfl
  · cases op with
    | get i => simp only [hl]; rw [get_chunk hc]
    | fill a b c d e f g => simp only [hl]; rw [fillArray_chunk hc]
    | loop lo hi => simp only [hl]; rw [loopRange_chunk hc]
    | loopAll =>
      simp only [hl]
      unfold Lib.indexLoopAll
      have e : lib.idx.getShape { C with chunk := X } = lib.idx.getShape C := rfl
      rw [e]
      congr 1
      refine bind_congr_ok fun r _ => ?_
      exact loopRange_chunk (lib := { lib with idx := r.1 }) hc
    | query q => simp only [hl]; cases q <;> rfl
    | _ => exact ho.elim
  · simp only [hl]; rw [flushLib_chunk hc]
  · simp only [hl]; rw [destroy_chunk hc]

theorem run_chunk : ∀ (ops : List LOp) {st : MState} {lib : Lib}, st.lib = some lib → lib.cc.Clean → (∀ op ∈ ops, op.Reads) →
    st.run { C with chunk := X } S ops = st.run C S ops
  | [], _, _, _, _, _ => rfl
  | op :: ops, st, lib, hl, hc, ho => by
      simp only [MState.run]
      rw [step_chunk hl hc (Or.inl (ho op List.mem_cons_self))]
      refine bind_congr_ok fun r hr => ?_
      obtain ⟨lib1, k1, k2, _⟩ := step_clean (st' := r.1) (o := r.2) hl hc (ho op List.mem_cons_self) hr
      rw [run_chunk ops k1 k2.clean fun op hop => ho op (List.mem_cons_of_mem _ hop)]

/-- **C59, C27.** A session that only reads gives the same results (values, errors, files) whatever streamer chunk size the library object is made with. -/
theorem C59_reader_chunk_size_irrelevant (C : Cfg) (S : Sorter) (X : List Nat) (fs : FS) (dir : Nat) (init : List Nat) (reads : List LOp) (hr : ∀ op ∈ reads, op.Reads) :
    MState.run { C with chunk := X } S ⟨none, fs⟩ (.open dir init :: reads) = MState.run C S ⟨none, fs⟩ (.open dir init :: reads) ∧
    ∀ st rs, MState.run C S ⟨none, fs⟩ (.open dir init :: reads) = .ok (st, rs) → st.step { C with chunk := X } S .close = st.step C S .close := by
  constructor
  · simp only [MState.run]
    refine bind_congr_ok fun r hr' => ?_
    unfold MState.step at hr'
    obtain ⟨lib, h3, h1⟩ := Res.bind_eq_ok.1 hr'
    cases h1
    obtain ⟨c1, c2, c3⟩ := open_clean h3
    rw [run_chunk reads (st := ⟨some lib, fs⟩) rfl c1 hr]
  · intro st rs h
    simp only [MState.run] at h
    obtain ⟨r, h1, h⟩ := Res.bind_eq_ok.1 h
    obtain ⟨r', h2, h⟩ := Res.bind_eq_ok.1 h
    cases h
    unfold MState.step at h1
    obtain ⟨lib, h3, h1⟩ := Res.bind_eq_ok.1 h1
    cases h1
    obtain ⟨c1, c2, c3⟩ := open_clean h3
    obtain ⟨lib', k1, k2, k3⟩ := run_clean reads (st' := r'.1) (rs := r'.2) rfl c1 hr h2
    exact step_chunk k1 k2.clean (Or.inr (Or.inr rfl))

/-- The library of `Ex.hist`, read with the default streamer chunk size. -/
example : (match MState.run (Ex.cfg 1) Tree.Ex.S ⟨none, fun _ => none⟩ (Ex.hist.take 8) with
    | .ok (st, _) =>
      match MState.run { Ex.cfg 1 with chunk := List.replicate 2 (U64 - 1) } Tree.Ex.S ⟨none, st.fs⟩ (.open 0 [1, 1] :: Ex.reads) with
      | .ok (_, rs) => rs.map fun (o : Out) => match o with | .vec v => v | .calls c => c.flatMap Prod.snd | _ => []
      | _ => []
    | _ => []) = [[], [4], [6], [3, 4, 5, 6]] := by decide +kernel

end Verif.Dist
