import Verif.Dist.CacheOps
/-
C27: chunk caching is invisible to readers, for every cache size (including 0) and every history; what fails when the axis of appending
changes (C52).
-/
namespace Verif.Dist
open Verif Verif.ND Verif.Bytes Verif.Stream
open Verif.Cache (CRel keyGone)

variable {C : Cfg}

/-- The calls a client of the chunk cache can make.  A chunk is named by its identifier. -/
inductive COp where
  | register (m : Meta) (a : Arr)
  | append (k : Nat) (s : Arr)
  | read (k : Nat)
  | flush

/-- Cache, files, and the metadata the client holds for each chunk. -/
structure CState where
  cc : CC
  fs : FS
  metas : Nat → Option Meta

/-- One call.  `AppendSlice` updates the metadata it is given (DistributedNDVecArray.hxx 128). -/
def CState.step (C : Cfg) (st : CState) : COp → Res (CState × Option Arr)
  | .register m a => (registerNew C st.cc st.fs m a).bind fun q =>
      .ok (⟨q.1, q.2, fun k => if k = m.id then some m else st.metas k⟩, none)
  | .append k s =>
    match st.metas k with
    | none => .ub
    | some m => (appendChunk C 0 st.cc st.fs m s).bind fun q =>
        .ok (⟨q.1, q.2.1, fun j => if j = k then some q.2.2 else st.metas j⟩, none)
  | .read k =>
    match st.metas k with
    | none => .ub
    | some m => (retrieve C st.cc st.fs m).bind fun q => .ok ({ st with cc := q.1, fs := q.2.1 }, some q.2.2)
  | .flush => (Verif.Dist.flush C st.cc st.fs).bind fun q => .ok ({ st with cc := q.1, fs := q.2 }, none)

/-- A sequence of calls and what they return. -/
def CState.run (C : Cfg) : CState → List COp → Res (CState × List (Option Arr))
  | st, [] => .ok (st, [])
  | st, op :: ops => (st.step C op).bind fun r => (r.1.run C ops).bind fun r' => .ok (r'.1, r.2 :: r'.2)

/-! ### Specification: all chunks in memory -/

/-- What each call means if every chunk is simply kept in memory. -/
def memStep (mem : Nat → Option Arr) : COp → (Nat → Option Arr) × Option Arr
  | .register m a => (fun k => if k = m.id then some a else mem k, none)
  | .append k s => (fun j => if j = k then (mem k).map fun a => a.cat s else mem j, none)
  | .read k => (mem, mem k)
  | .flush => (mem, none)

def memRun : (Nat → Option Arr) → List COp → (Nat → Option Arr) × List (Option Arr)
  | mem, [] => (mem, [])
  | mem, op :: ops => let r := memStep mem op; let r' := memRun r.1 ops; (r'.1, r.2 :: r'.2)

/-- What the client knows about a registered chunk. -/
structure Known where
  ctype : CType
  path : List Nat
  shape : List Nat

/-- The same result. -/
def SameOut (vd : Nat) : Option Arr → Option Arr → Prop
  | none, none => True
  | some a, some b => AEq vd a b
  | _, _ => False

/-- The same results, call by call. -/
def SameOuts (vd : Nat) : List (Option Arr) → List (Option Arr) → Prop
  | [], [] => True
  | a :: as, b :: bs => SameOut vd a b ∧ SameOuts vd as bs
  | _, _ => False

/-- The calls that are allowed when the chunks `mem` are registered: new chunks have a new identifier, a new file (or, for chunks declared to be
    zero, no file, and they are zero); slices extend a chunk that has a file, and fit; only registered chunks are read. -/
def Allowed (C : Cfg) (mem : Nat → Option Arr) (known : Nat → Option Known) : COp → Prop
  | .register m a => mem m.id = none ∧ a.Ok C ∧
      (m.ctype = .specified → m.path ≠ [] ∧ ∀ j kn, known j = some kn → kn.path ≠ m.path) ∧
      (m.ctype = .all_null → m.path = [] ∧ AEq C.vd (zeros C.vd m.shape) a)
  | .append k s => s.Ok C ∧ ∃ a kn, mem k = some a ∧ known k = some kn ∧ kn.ctype = .specified ∧ kn.shape = a.shape ∧ Extends C a s
  | .read k => ∃ a, mem k = some a
  | .flush => True

def knownStep (known : Nat → Option Known) : COp → Nat → Option Known
  | .register m _ => fun k => if k = m.id then some ⟨m.ctype, m.path, m.shape⟩ else known k
  | .append k s => fun j => if j = k then (known k).map fun kn => { kn with shape := bump kn.shape 0 (s.shape.getD 0 0) } else known j
  | _ => known

def AllAllowed (C : Cfg) : (Nat → Option Arr) → (Nat → Option Known) → List COp → Prop
  | _, _, [] => True
  | mem, known, op :: ops => Allowed C mem known op ∧ AllAllowed C (memStep mem op).1 (knownStep known op) ops

/-! ### Proof -/

/-- The state of the client stands for the chunks `M`. -/
structure CliInv (C : Cfg) (M : Chunks) (st : CState) (mem : Nat → Option Arr) (known : Nat → Option Known) : Prop where
  ok : M.Ok C
  inv : ∃ s, CInv C M st.cc st.fs s
  metas : ∀ k, st.metas k = (M k).map Prod.fst
  mem : ∀ k, mem k = (M k).map Prod.snd
  known : ∀ k, known k = (M k).map fun p => ⟨p.1.ctype, p.1.path, p.1.shape⟩

theorem register_put_ok {M : Chunks} (hM : M.Ok C) {m : Meta} {a : Arr} (ha : a.Ok C) (hn : M m.id = none)
    (hs : m.ctype = .specified → m.path ≠ [] ∧ ∀ j mj aj, M j = some (mj, aj) → mj.path ≠ m.path)
    (hz : m.ctype = .all_null → m.path = [] ∧ AEq C.vd (zeros C.vd m.shape) a) : (M.put m.id (some (m, a))).Ok C := by
  have key : ∀ j mj aj, M.put m.id (some (m, a)) j = some (mj, aj) → (j = m.id ∧ mj = m ∧ aj = a) ∨ (j ≠ m.id ∧ M j = some (mj, aj)) := by
    intro j mj aj hj
    by_cases hjk : j = m.id
    · subst hjk; rw [Chunks.put_self] at hj; cases hj; exact Or.inl ⟨rfl, rfl, rfl⟩
    · rw [Chunks.put_ne _ _ hjk] at hj; exact Or.inr ⟨hjk, hj⟩
  have hsp : m.path ≠ [] → m.ctype = .specified := by
    intro hne
    cases hc : m.ctype with
    | specified => rfl
    | all_null => exact absurd (hz hc).1 hne
  refine ⟨fun j mj aj hj => ?_, fun j mj aj hj => ?_, fun j mj aj hj => ?_, fun j mj aj hj => ?_, fun j mj aj j' mj' aj' hj hj' hne he => ?_⟩
  · rcases key j mj aj hj with ⟨rfl, rfl, rfl⟩ | ⟨_, h⟩
    · rfl
    · exact hM.id _ _ _ h
  · rcases key j mj aj hj with ⟨rfl, rfl, rfl⟩ | ⟨_, h⟩
    · exact ha
    · exact hM.arr _ _ _ h
  · rcases key j mj aj hj with ⟨rfl, rfl, rfl⟩ | ⟨_, h⟩
    · exact fun hc => (hs hc).1
    · exact hM.spec _ _ _ h
  · rcases key j mj aj hj with ⟨rfl, rfl, rfl⟩ | ⟨_, h⟩
    · exact hz
    · exact hM.null _ _ _ h
  · rcases key j mj aj hj with ⟨rfl, rfl, rfl⟩ | ⟨h1, h⟩ <;> rcases key j' mj' aj' hj' with ⟨rfl, rfl, rfl⟩ | ⟨h1', h'⟩
    · rfl
    · exact absurd he.symm ((hs (hsp hne)).2 _ _ _ h')
    · exact absurd he ((hs (hsp (he ▸ hne))).2 _ _ _ h)
    · exact hM.inj _ _ _ _ _ _ h h' hne he

theorem step_ok (hC : C.Ok) {M : Chunks} {st : CState} {mem : Nat → Option Arr} {known : Nat → Option Known} (h : CliInv C M st mem known) (op : COp)
    (ha : Allowed C mem known op) :
    ∃ st' out M', st.step C op = .ok (st', out) ∧ SameOut C.vd (memStep mem op).2 out ∧ CliInv C M' st' (memStep mem op).1 (knownStep known op) := by
  obtain ⟨s, hinv⟩ := h.inv
  have hMk : ∀ {k a}, mem k = some a → ∃ m, M k = some (m, a) := by
    intro k a hk
    rw [h.mem] at hk
    cases hm : M k with
    | none => rw [hm] at hk; cases hk
    | some p => rw [hm] at hk; cases hk; exact ⟨p.1, rfl⟩
  cases op with
  | register m a =>
    obtain ⟨h1, h2, h3, h4⟩ := ha
    have hn : M m.id = none := by
      cases hm : M m.id with
      | none => rfl
      | some p => rw [h.mem, hm] at h1; cases h1
    have hM' : (M.put m.id (some (m, a))).Ok C := register_put_ok h.ok h2 hn
      (fun hc => ⟨(h3 hc).1, fun j mj aj hj => (h3 hc).2 j ⟨mj.ctype, mj.path, mj.shape⟩ (by rw [h.known, hj]; rfl)⟩) h4
    have hk : m.id ∉ s.map Prod.fst := by
      intro hm
      obtain ⟨e, he⟩ := mem_of_key hm
      obtain ⟨_, _, hh, _⟩ := hinv.cached _ _ he
      rw [hn] at hh; cases hh
    obtain ⟨cc', fs', s', g1, g2, g3, _⟩ := registerNew_ok hC h.ok hinv hM' hk
    refine ⟨⟨cc', fs', fun k => if k = m.id then some m else st.metas k⟩, none, M.put m.id (some (m, a)), ?_, trivial, hM', ⟨s', g3⟩, ?_, ?_, ?_⟩
    · simp only [CState.step, g1, Res.ok_bind]
    · intro k; simp only [Chunks.put]; split
      · rfl
      · exact h.metas k
    · intro k; simp only [memStep, Chunks.put]; split
      · rfl
      · exact h.mem k
    · intro k; simp only [knownStep, Chunks.put]; split
      · rfl
      · exact h.known k
  | append k v =>
    obtain ⟨h1, a, kn, h2, h3, h4, h5, h6⟩ := ha
    obtain ⟨m, hm⟩ := hMk h2
    have hid := h.ok.id _ _ _ hm
    subst hid
    have hkn : (⟨m.ctype, m.path, m.shape⟩ : Known) = kn := by
      have := h.known m.id; rw [hm, h3] at this; exact (Option.some.inj this).symm
    subst hkn
    obtain ⟨cc', fs', s', g1, g2, g3, g4, _⟩ := appendChunk_ok hC h.ok hinv hm h4 h5 h1 h6
    refine ⟨⟨cc', fs', fun j => if j = m.id then some (m.grow 0 (v.shape.getD 0 0)) else st.metas j⟩, none, _, ?_, trivial, g4, ⟨s', g3⟩, ?_, ?_, ?_⟩
    · simp only [CState.step, h.metas, hm, Option.map_some, g1, Res.ok_bind]
    · intro j; simp only [Chunks.put]; split
      · rfl
      · exact h.metas j
    · intro j; simp only [memStep, Chunks.put]; split
      · rw [h.mem, hm]; rfl
      · exact h.mem j
    · intro j; simp only [knownStep, Chunks.put]; split
      · rw [h.known, hm]; rfl
      · exact h.known j
  | read k =>
    obtain ⟨a, h2⟩ := ha
    obtain ⟨m, hm⟩ := hMk h2
    have hid := h.ok.id _ _ _ hm
    subst hid
    obtain ⟨cc', fs', s', b, g1, g2, g3, g4, g5, _⟩ := retrieve_ok hC h.ok hinv hm
    refine ⟨{ st with cc := cc', fs := fs' }, some b, M, ?_, ?_, h.ok, ⟨s', g3⟩, h.metas, h.mem, h.known⟩
    · simp only [CState.step, h.metas, hm, Option.map_some, g1, Res.ok_bind]
    · simp only [memStep, h2, SameOut]; exact g5
  | flush =>
    obtain ⟨cc', fs', g1, g2, g3, _⟩ := flush_ok hC h.ok hinv
    refine ⟨{ st with cc := cc', fs := fs' }, none, M, ?_, trivial, h.ok, ⟨[], g3⟩, h.metas, h.mem, h.known⟩
    simp only [CState.step, g1, Res.ok_bind]

theorem run_ok (hC : C.Ok) : ∀ (ops : List COp) {M : Chunks} {st : CState} {mem : Nat → Option Arr} {known : Nat → Option Known},
    CliInv C M st mem known → AllAllowed C mem known ops →
    ∃ st' outs, st.run C ops = .ok (st', outs) ∧ SameOuts C.vd (memRun mem ops).2 outs
  | [], _, st, _, _, _, _ => ⟨st, [], rfl, trivial⟩
  | op :: ops, M, st, mem, known, h, ha => by
      obtain ⟨st1, out, M1, h1, h2, h3⟩ := step_ok hC h op ha.1
      obtain ⟨st2, outs, g1, g2⟩ := run_ok hC ops h3 ha.2
      refine ⟨st2, out :: outs, ?_, h2, g2⟩
      simp only [CState.run, h1, g1, Res.ok_bind]

/-- **C27.** A chunk cache of any size (`C.size`, 0 included), working on any directory with any files in it, answers every allowed history of
    registering, appending to, reading and flushing any number of chunks exactly like a memory that holds all the chunks: no call fails and each
    read returns the data registered for the chunk followed by the slices appended to it. -/
theorem C27_cache_transparent (C : Cfg) (hC : C.Ok) (dir : Nat) (init_shape : List Nat) (fs : FS) (ops : List COp)
    (hops : AllAllowed C (fun _ => none) (fun _ => none) ops) :
    ∃ cc, CC.construct C dir init_shape = .ok cc ∧
      ∃ st outs, CState.run C ⟨cc, fs, fun _ => none⟩ ops = .ok (st, outs) ∧ SameOuts C.vd (memRun (fun _ => none) ops).2 outs := by
  obtain ⟨c, h1, h2⟩ := CRel.construct (max 1 C.size) (by omega)
    (⟨defaultMeta C.dims, ⟨init_shape, (List.range (volume C.vd init_shape)).map C.junk⟩, .nothing⟩ : Entry) (0 : Nat)
  refine ⟨⟨dir, c⟩, by unfold CC.construct; rw [h1]; rfl, ?_⟩
  refine run_ok hC ops (M := fun _ => none) ⟨⟨?_, ?_, ?_, ?_, ?_⟩, ⟨[], h2, ?_, ?_⟩, fun _ => rfl, fun _ => rfl, fun _ => rfl⟩ hops <;>
    (intros; simp_all)

/-! ### Concrete cases -/

namespace Ex

/-- Two-dimensional chunks of single numbers, streamer chunks of one row of up to 8 elements. -/
def cfg (size : Nat) : Cfg := ⟨.little, 1, 2, [1, 8], size, fun _ => 77⟩

theorem cfg_ok (size : Nat) : (cfg size).Ok := by
  refine ⟨Nat.one_pos, Nat.two_pos, rfl, ?_, ?_, by show 1 < 2 ^ 63; decide⟩
  · show ∀ x ∈ [1, 8], x < 2 ^ 64
    decide
  · show ∀ x ∈ [1, 8], 0 < x
    decide

theorem fit {size n m : Nat} (hn : n < 1000) (hm : m ≤ 8) : Fit (cfg size) [n, m] := by
  have h : n * m ≤ 1000 * 8 := Nat.mul_le_mul (by omega) hm
  refine ⟨rfl, ?_, ?_, ?_, ?_, ?_⟩
  · intro x hx; rcases List.mem_cons.1 hx with rfl | hx
    · omega
    · rw [List.mem_singleton] at hx; omega
  · show volume 1 [n, m] < 2 ^ 62
    rw [volume_cons]
    simp only [prod, Nat.mul_one]; omega
  · exact Nat.one_dvd _
  · intro d h1 h2
    have h2 : d < 2 := h2
    have : d = 1 := by omega
    subst this; left; exact hm
  · show 1 * numElems [m] < 2 ^ 32
    simp only [numElems_eq, prod]; omega

def a0 : Arr := ⟨[2, 2], [1, 2, 3, 4]⟩
def s0 : Arr := ⟨[1, 2], [5, 6]⟩
def z0 : Arr := ⟨[1, 2], [0, 0]⟩

theorem a0_ok (size : Nat) : a0.Ok (cfg size) := ⟨fit (by decide) (by decide), by show 4 = volume 1 [2, 2]; decide, by decide⟩
theorem s0_ok (size : Nat) : s0.Ok (cfg size) := ⟨fit (by decide) (by decide), by show 2 = volume 1 [1, 2]; decide, by decide⟩
theorem z0_ok (size : Nat) : z0.Ok (cfg size) := ⟨fit (by decide) (by decide), by show 2 = volume 1 [1, 2]; decide, by decide⟩

def mA : Meta := mkMeta .specified [65] 0 [0, 0] [2, 2] 0
def mB : Meta := mkMeta .specified [66] 1 [0, 2] [2, 2] 0
def mZ : Meta := mkMeta .all_null [] 2 [2, 2] [1, 2] 0

/-- Two chunks and a zero chunk; slices are appended to both chunks, with reads and a flush in between. -/
def history : List COp :=
  [.register mA a0, .register mB a0, .register mZ z0, .append 0 s0, .read 0, .append 1 s0, .append 0 s0, .read 2, .flush, .append 0 s0, .append 0 s0, .read 1,
   .read 0]

theorem ext {size n m : Nat} {b c : List Nat} (h : n + m < 1000) : Extends (cfg size) ⟨[n, 2], b⟩ ⟨[m, 2], c⟩ := ⟨rfl, fit (n := n + m) h (by decide)⟩

/-- The history is allowed, whatever the size of the cache. -/
theorem history_allowed (size : Nat) : AllAllowed (cfg size) (fun _ => none) (fun _ => none) history := by
  have hb : ∀ n, n < 100 → bump [n, 2] 0 1 = [n + 1, 2] := by
    intro n hn
    unfold bump
    rw [List.getD_cons_zero, wadd_eq (by show n + 1 < 2 ^ 64; omega)]; rfl
  refine ⟨⟨rfl, a0_ok _, fun _ => ⟨by decide, fun j kn h => by cases h⟩, fun h => by cases h⟩, ⟨rfl, a0_ok _, fun _ => ⟨by decide, fun j kn h => ?_⟩, fun h => by cases h⟩,
    ⟨rfl, z0_ok _, fun h => (by cases h), fun _ => ⟨rfl, AEq.refl (cfg_ok size) (z0_ok size)⟩⟩,
    ⟨s0_ok _, a0, ⟨.specified, [65], [2, 2]⟩, rfl, rfl, rfl, rfl, ext (by decide)⟩, ⟨_, rfl⟩,
    ⟨s0_ok _, a0, ⟨.specified, [66], [2, 2]⟩, rfl, rfl, rfl, rfl, ext (by decide)⟩,
    ⟨s0_ok _, a0.cat s0, ⟨.specified, [65], bump [2, 2] 0 1⟩, rfl, rfl, rfl, hb 2 (by decide), ext (by decide)⟩, ⟨_, rfl⟩, trivial,
    ⟨s0_ok _, (a0.cat s0).cat s0, ⟨.specified, [65], bump (bump [2, 2] 0 1) 0 1⟩, rfl, rfl, rfl, ?_, ext (by decide)⟩,
    ⟨s0_ok _, ((a0.cat s0).cat s0).cat s0, ⟨.specified, [65], bump (bump (bump [2, 2] 0 1) 0 1) 0 1⟩, rfl, rfl, rfl, ?_, ext (by decide)⟩, ⟨_, rfl⟩, ⟨_, rfl⟩, trivial⟩
  · simp only [knownStep] at h
    split at h
    · cases h; decide
    · cases h
  · rw [hb 2 (by decide), hb 3 (by decide)]; rfl
  · rw [hb 2 (by decide), hb 3 (by decide), hb 4 (by decide)]; rfl

/-- What the last read returns. -/
example : ((memRun (fun _ => none) history).2.getLast?) = some (some ⟨[6, 2], [1, 2, 3, 4, 5, 6, 5, 6, 5, 6, 5, 6]⟩) := by decide +kernel

end Ex

example (size : Nat) : ∃ cc, CC.construct (Ex.cfg size) 0 [1, 1] = .ok cc ∧
    ∃ st outs, CState.run (Ex.cfg size) ⟨cc, fun _ => none, fun _ => none⟩ Ex.history = .ok (st, outs) ∧
      SameOuts 1 (memRun (fun _ => none) Ex.history).2 outs :=
  C27_cache_transparent (Ex.cfg size) (Ex.cfg_ok size) 0 [1, 1] _ _ (Ex.history_allowed size)

/-! ### C52: changing the axis of appending -/

/-- The calls of the chunk cache with an arbitrary axis: register a chunk, write it out, append `s` along axis 1 and then `t` along axis 0, and read
    the chunk. -/
def axisChange (C : Cfg) (m : Meta) (a s t : Arr) : Res (Meta × Arr) :=
  (CC.construct C 0 [1, 1]).bind fun cc =>
  (registerNew C cc (fun _ => none) m a).bind fun q =>
  (flush C q.1 q.2).bind fun q =>
  (appendChunk C 1 q.1 q.2 m s).bind fun q =>
  (appendChunk C 0 q.1 q.2.1 q.2.2 t).bind fun q =>
  (retrieve C q.1 q.2.1 q.2.2).bind fun r => .ok (q.2.2, r.2.2)

/-- **C52, negation.** Appending to a chunk along one axis and then along another loses the chunk: with a cache of one element, the chunk
    `[[5]]`, extended by `[[7]]` along axis 1 and by `[[8, 9]]` along axis 0, should read `[[5, 7], [8, 9]]` and its metadata says that its shape
    is (2, 2), but it reads `[[5, 7], [5, 7], [8, 9]]`: the data already in the file are appended to it again
    (DistributedNDVecArray.hxx 164-179). -/
theorem C52_axis_change_duplicates :
    axisChange ⟨.little, 1, 2, [1, 1], 1, fun _ => 0⟩ (mkMeta .specified [65] 0 [0, 0] [1, 1] 0) ⟨[1, 1], [5]⟩ ⟨[1, 1], [7]⟩ ⟨[1, 2], [8, 9]⟩ =
      .ok (mkMeta .specified [65] 0 [0, 0] [2, 2] 0, ⟨[3, 2], [5, 7, 5, 7, 8, 9]⟩) := by
  decide +kernel

end Verif.Dist
