import Verif.Green.Create
import Verif.Dist.Props26
import Verif.Stream.Props
/-
C77: files that are incomplete (the program or the machine stopped while writing, or the disk was full). `stream.read` past the end leaves its target as it is, and no reader checks the state of the stream: uninitialised
memory is used, which is undefined behaviour (`takeBytes` in Bytes/Model).
-/
namespace Verif.Dist
open Verif Verif.ND Verif.Tree Verif.Bytes Verif.Stream Verif.NullSup

variable {α β : Type}

/-! ### Readers do not look beyond what they consume -/

/-- A reader of a stream: unless it runs out of bytes, more bytes behind do not matter. -/
def Reader (f : List Nat → Res (α × List Nat)) : Prop := ∀ s x, f s = .ub ∨ f (s ++ x) = (f s).bind fun r => .ok (r.1, r.2 ++ x)

theorem Reader.take (n : Nat) : Reader (takeBytes n) := by
  intro s x
  unfold takeBytes
  by_cases h : n ≤ s.length
  · right
    rw [if_pos h, if_pos (by simp; omega)]
    simp [List.take_append_of_le_length h, List.drop_append_of_le_length h]
  · left; rw [if_neg h]

theorem Reader.bind {f : List Nat → Res (α × List Nat)} {g : α → List Nat → Res (β × List Nat)} (hf : Reader f) (hg : ∀ a, Reader (g a)) : Reader fun s => (f s).bind fun r => g r.1 r.2 := by
  intro s x
  show (f s).bind _ = .ub ∨ (f (s ++ x)).bind _ = ((f s).bind _).bind _
  rcases hf s x with h | h
  · left; rw [h]; rfl
  · rw [h]
    cases f s with
    | ok r => exact hg r.1 r.2 x
    | ub => left; rfl
    | abort => right; rfl
    | throw => right; rfl
    | diverge => right; rfl

theorem Reader.pure (a : α) : Reader fun s => .ok (a, s) := fun _ _ => Or.inr rfl

/-- Something that does not read. -/
theorem Reader.with {γ : Type} (y : Res γ) {g : γ → List Nat → Res (β × List Nat)} (hg : ∀ a, Reader (g a)) : Reader fun s => y.bind fun a => g a s := by
  intro s x
  cases y with
  | ok a => exact hg a s x
  | ub => left; rfl
  | abort => right; rfl
  | throw => right; rfl
  | diverge => right; rfl

theorem Reader.map {f : List Nat → Res (α × List Nat)} (hf : Reader f) (k : α → β) : Reader fun s => (f s).bind fun r => .ok (k r.1, r.2) := hf.bind fun a => Reader.pure (k a)

theorem reader_u32 (h : Host) : Reader (u32 h).deser := (Reader.take 4).map fun r => htonl h (unmem h r)
theorem reader_u64 (h : Host) : Reader (u64 h).deser := (Reader.take 8).map fun r => htonll h (unmem h r)

theorem reader_deserN {c : Codec α} (hc : Reader c.deser) : ∀ n, Reader (deserN c n)
  | 0 => Reader.pure []
  | n + 1 => hc.bind fun a => (reader_deserN hc n).map fun q => a :: q

theorem reader_vector (h : Host) {c : Codec α} (hc : Reader c.deser) : Reader (vector h c).deser := (reader_u64 h).bind fun n => reader_deserN hc n
theorem reader_array (n : Nat) {c : Codec α} (hc : Reader c.deser) : Reader (array n c).deser := reader_deserN hc n
theorem reader_string (h : Host) : Reader (string h).deser := (reader_u64 h).bind fun n => Reader.take n

theorem reader_gfMeta (h : Host) : Reader (gfMeta h).deser :=
  (reader_array 3 (reader_u32 h)).bind fun a => (reader_array 3 (reader_u32 h)).bind fun b => (reader_array 3 (reader_u32 h)).map fun c => (⟨a, b, c⟩ : GFMeta)

theorem reader_meta (h : Host) (dims : Nat) : Reader (metaCodec h dims).deser :=
  (reader_u64 h).bind fun a => Reader.with (ctypeOf a) fun ct => (reader_string h).bind fun b => (reader_u64 h).bind fun c => (reader_array dims (reader_u64 h)).bind fun d =>
    (reader_array dims (reader_u64 h)).bind fun e => (reader_u64 h).map fun f => mkMeta ct b c d e f

theorem reader_sMeta (h : Host) (dims : Nat) : Reader (sMeta h dims).deser :=
  (reader_array dims (reader_u64 h)).bind fun a => (reader_array dims (reader_u64 h)).bind fun b => (reader_u64 h).map fun c => (⟨a, b, c⟩ : SMeta)

theorem reader_cMeta (h : Host) : Reader (cMeta h).deser := (reader_u64 h).bind fun a => (reader_u64 h).map fun b => (a, b)

/-- One chunk, with the contents of the array carried along. -/
theorem reader_chunk (h : Host) (vd : Nat) (ha : Hdr) (p : List Nat × List Nat) (buf : List Nat) : Reader fun s => (readChunk h vd ha p (s, buf)).bind fun q => .ok (q.2, q.1) := by
  have k : Reader fun s => ((cMeta h).deser s).bind fun m => (takeBytes (4 * m.1.2) m.2).bind fun r =>
      ((if m.1.1 = 1 then fromBuffer (htonl h) vd (numElems (view ha p.1 p.2).shape) (words h m.1.2 r.1)
        else if m.1.1 = 2 then desuppress (htonl h) vd (numElems (view ha p.1 p.2).shape) 0 (words h m.1.2 r.1) else .ok ([], words h m.1.2 r.1)).bind fun q =>
        (storeElems vd (view ha p.1 p.2) buf q.1).bind fun b => (Res.assert (q.2.length == 0)).bind fun _ => .ok b).bind fun b => .ok (b, r.2) :=
    (reader_cMeta h).bind fun m => (Reader.take (4 * m.2)).bind fun r => Reader.with
      ((if m.1 = 1 then fromBuffer (htonl h) vd (numElems (view ha p.1 p.2).shape) (words h m.2 r)
        else if m.1 = 2 then desuppress (htonl h) vd (numElems (view ha p.1 p.2).shape) 0 (words h m.2 r) else .ok ([], words h m.2 r)).bind fun q =>
        (storeElems vd (view ha p.1 p.2) buf q.1).bind fun b => (Res.assert (q.2.length == 0)).bind fun _ => .ok b) fun b => Reader.pure b
  have assoc : ∀ {γ δ ε : Type} (y : Res γ) (f : γ → Res δ) (g : δ → Res ε), (y.bind f).bind g = y.bind fun a => (f a).bind g := fun y f g => by cases y <;> rfl
  refine cast (congrArg Reader (funext fun s => ?_)) k
  unfold readChunk
  simp only [assoc, Res.ok_bind]

theorem reader_chunks (h : Host) (vd : Nat) (ha : Hdr) : ∀ (boxes : List (List Nat × List Nat)) (buf : List Nat), Reader fun s => (runLoop (readChunk h vd ha) boxes (s, buf)).bind fun q => .ok (q.2, q.1)
  | [], buf => Reader.pure buf
  | p :: ps, buf => by
    have k := (reader_chunk h vd ha p buf).bind fun b => reader_chunks h vd ha ps b
    refine cast (congrArg Reader (funext fun s => ?_)) k
    show _ = (runLoop (readChunk h vd ha) (p :: ps) (s, buf)).bind _
    rw [show runLoop (readChunk h vd ha) (p :: ps) (s, buf) = (readChunk h vd ha p (s, buf)).bind (runLoop (readChunk h vd ha) ps) from rfl]
    cases readChunk h vd ha p (s, buf) <;> rfl

theorem reader_array_file (h : Host) (vd dims : Nat) (hd : Hdr) (dst : List Nat) (junk : Nat → Nat) : Reader (deserialize h vd dims hd dst junk) := by
  have k : Reader fun s => ((sMeta h dims).deser s).bind fun m => (resize vd hd dst m.1.array_shape junk).bind fun a =>
      (Res.ofLoop (arrayChunkLoop (fuelFor a.1.shape) a.1.shape m.1.ser_chunk)).bind fun boxes =>
      ((runLoop (readChunk h vd a.1) boxes (m.2, a.2)).bind fun q => .ok (q.2, q.1)).bind fun st => .ok ((a.1, st.1), st.2) :=
    (reader_sMeta h dims).bind fun m => Reader.with (resize vd hd dst m.array_shape junk) fun a => Reader.with (Res.ofLoop (arrayChunkLoop (fuelFor a.1.shape) a.1.shape m.ser_chunk)) fun boxes => (reader_chunks h vd a.1 boxes a.2).map fun b => (a.1, b)
  refine cast (congrArg Reader (funext fun s => ?_)) k
  unfold deserialize
  have assoc : ∀ {γ δ ε : Type} (y : Res γ) (f : γ → Res δ) (g : δ → Res ε), (y.bind f).bind g = y.bind fun a => (f a).bind g := fun y f g => by cases y <;> rfl
  simp only [assoc, Res.ok_bind]

/-- A reader that consumes the whole file runs out of bytes on each proper prefix of it. -/
theorem Reader.prefix {f : List Nat → Res (α × List Nat)} (hf : Reader f) {s x : List Nat} {a : α} (h : f (s ++ x) = .ok (a, [])) (hx : x ≠ []) : f s = .ub := by
  rcases hf s x with k | k
  · exact k
  · exfalso
    rw [h] at k
    obtain ⟨r, _, e⟩ := Res.bind_eq_ok.1 k.symm
    have := congrArg Prod.snd (Res.ok.inj e)
    simp only [List.append_eq_nil_iff] at this
    exact hx this.2

/-! ### C77 -/

/-- C77 does not hold: opening a library whose index file is incomplete is undefined behaviour, for every index and at whatever byte the file ends. -/
theorem C77_index_undefined (C : Cfg) (S : Sorter) (fs : FS) (dir : Nat) (init : List Nat) (ms : List Meta) (hl : ms.length < 2 ^ 64) (hm : ∀ m ∈ ms, RoundTrips (metaCodec C.hst C.dims) m) (s x : List Nat)
    (hx : x ≠ []) (hfile : (vector C.hst (metaCodec C.hst C.dims)).ser ms = s ++ x) (hfs : fs (dir, .index) = some s) : Lib.open C S fs dir init = .ub := by
  have rt := C11_vector C.hst (metaCodec C.hst C.dims) ms hl hm []
  rw [List.append_nil, hfile] at rt
  have := (reader_vector C.hst (reader_meta C.hst C.dims)).prefix rt hx
  unfold Lib.open Index.open loadEntries
  rw [hfs]
  simp only
  rw [this]
  rfl

/-- C77 does not hold: reading an incomplete file of an array with a streamer that has not been used before (otherwise see `C86_truncated_stale`) is undefined behaviour, for every array or view, every chunk shape and mode it was written with, and at whatever byte the file ends. -/
theorem C77_chunk_undefined (hst : Host) (vd : Nat) (P st : List Nat) (h : Hdr) (buf : List Nat) (g : Given vd P st h buf) (chunk : List Nat) (hc : Small chunk) (hwf : ∃ c ∈ chunk, c ≠ 2 ^ 64 - 1)
    (hsafe : Safe (h.shape.map fun _ => 0) h.shape chunk) (mode : Mode) (hm : mode ≠ .automatic) (hsz : mode = .null_suppressed → ChunksBelow h.shape chunk) (s x : List Nat) (hx : x ≠ [])
    (hfile : serialize hst vd h buf chunk mode = .ok (s ++ x)) (Q0 dst : List Nat) (junk : Nat → Nat) : deserialize hst vd h.shape.length (mkHdr vd Q0) dst junk s = .ub := by
  obtain ⟨bytes, e, k⟩ := C15_round_trip hst vd P st h buf g chunk hc hwf hsafe mode hm hsz
  rw [hfile] at e
  cases e
  obtain ⟨out, k1, _⟩ := k Q0 dst junk []
  rw [List.append_nil] at k1
  exact (reader_array_file hst vd h.shape.length (mkHdr vd Q0) dst junk).prefix k1 hx

/-- C77 does not hold: opening a Green's function whose metadata are incomplete is undefined behaviour. -/
theorem C77_meta_undefined (C : Cfg) (S : Sorter) (dir n : Nat) (d : Green.Disk) (m : GFMeta) (hm : RoundTrips (gfMeta C.hst) m) (s x : List Nat) (hx : x ≠ []) (hfile : (gfMeta C.hst).ser m = s ++ x)
    (hd : d.green dir = some s) (hopen : ∃ g, Lib.open (Green.readerCfg C n) S d.fs dir (Green.readerShape C) = .ok g) : Green.load C S dir n d = .ub := by
  have rt := hm []
  rw [List.append_nil, hfile] at rt
  have := (reader_gfMeta C.hst).prefix rt hx
  obtain ⟨g, hg⟩ := hopen
  unfold Green.load
  rw [hg, hd]
  simp only [Res.ok_bind]
  rw [this]
  rfl

/-- **C77** (what remains): no complete index is the beginning of another one, so an incomplete file is never a complete one with other contents. -/
theorem C77_index_prefix_partial (h : Host) (dims : Nat) (ms ms' : List Meta) (hl : ms.length < 2 ^ 64) (hl' : ms'.length < 2 ^ 64) (hm : ∀ m ∈ ms, RoundTrips (metaCodec h dims) m)
    (hm' : ∀ m ∈ ms', RoundTrips (metaCodec h dims) m) (hp : (vector h (metaCodec h dims)).ser ms <+: (vector h (metaCodec h dims)).ser ms') : ms = ms' := by
  obtain ⟨x, hx⟩ := hp
  have r1 := C11_vector h (metaCodec h dims) ms hl hm x
  have r2 := C11_vector h (metaCodec h dims) ms' hl' hm' []
  rw [hx] at r1
  rw [List.append_nil, r1] at r2
  exact congrArg Prod.fst (Res.ok.inj r2)

/-- **C77** (what remains): if the file of one array is the beginning of (or equal to) the file of another one, written with whatever chunk shapes and modes, then both arrays have the same shape, and the same elements
    (up to the sign of zeros if null-suppressed). -/
theorem C77_array_prefix_partial (hst : Host) (vd : Nat) {P st : List Nat} {h : Hdr} {buf : List Nat} (g : Given vd P st h buf) {P' st' : List Nat} {h' : Hdr} {buf' : List Nat} (g' : Given vd P' st' h' buf')
    (hdim : h.shape.length = h'.shape.length) {chunk chunk' : List Nat} (hc : Small chunk) (hc' : Small chunk') (hwf : ∃ c ∈ chunk, c ≠ 2 ^ 64 - 1) (hwf' : ∃ c ∈ chunk', c ≠ 2 ^ 64 - 1)
    (hsafe : Safe (h.shape.map fun _ => 0) h.shape chunk) (hsafe' : Safe (h'.shape.map fun _ => 0) h'.shape chunk') {mode mode' : Mode} (hm : mode ≠ .automatic) (hm' : mode' ≠ .automatic)
    (hsz : mode = .null_suppressed → ChunksBelow h.shape chunk) (hsz' : mode' = .null_suppressed → ChunksBelow h'.shape chunk') {f f' : List Nat}
    (hf : serialize hst vd h buf chunk mode = .ok f) (hf' : serialize hst vd h' buf' chunk' mode' = .ok f') (hp : f <+: f') :
    f = f' ∧ h.shape = h'.shape ∧ ∀ i, ValidInd h.shape i → ∃ v v' w, ND.read vd h buf i = .ok v ∧ ND.read vd h' buf' i = .ok v' ∧ (w = v ∨ Canon v w) ∧ (w = v' ∨ Canon v' w) := by
  obtain ⟨x, rfl⟩ := hp
  obtain ⟨b, e, k⟩ := C15_round_trip hst vd P st h buf g chunk hc hwf hsafe mode hm hsz
  obtain ⟨b', e', k'⟩ := C15_round_trip hst vd P' st' h' buf' g' chunk' hc' hwf' hsafe' mode' hm' hsz'
  rw [hf] at e
  rw [hf'] at e'
  cases e; cases e'
  obtain ⟨out, o1, _, o3⟩ := k [] [] (fun _ => 0) x
  obtain ⟨out', p1, _, p3⟩ := k' [] [] (fun _ => 0) []
  rw [List.append_nil, ← hdim, o1] at p1
  have q := Res.ok.inj p1
  have hx : x = [] := congrArg Prod.snd q
  have hs : h.shape = h'.shape := congrArg (fun y : (Hdr × List Nat) × List Nat => y.1.1.shape) q
  have ho : out = out' := congrArg (fun y : (Hdr × List Nat) × List Nat => y.1.2) q
  subst ho
  refine ⟨by rw [hx, List.append_nil], hs, fun i hi => ?_⟩
  obtain ⟨v, w, v1, v2, v3, v4⟩ := o3 i hi
  obtain ⟨v', w', w1, w2, w3, w4⟩ := p3 i (by rw [← hs]; exact hi)
  rw [← hs, v2] at w2
  cases w2
  refine ⟨v, v', w, v1, w1, ?_, ?_⟩
  · cases mode with
    | dense => exact Or.inl (v3 rfl)
    | null_suppressed => exact Or.inr (v4 rfl)
    | automatic => exact absurd rfl hm
  · cases mode' with
    | dense => exact Or.inl (w3 rfl)
    | null_suppressed => exact Or.inr (w4 rfl)
    | automatic => exact absurd rfl hm'

/-! ### The hypotheses can be met -/

/-- The index of a library with one chunk, cut at byte 50. -/
example (S : Sorter) (fs : FS) (hfs : fs (0, .index) = some (((vector Host.little (metaCodec .little 2)).ser [mkMeta .all_null [] 7 [0, 5] [4, 2] 1]).take 50)) : Lib.open (Ex.cfg 4) S fs 0 [1, 1] = .ub := by
  refine C77_index_undefined (Ex.cfg 4) S fs 0 [1, 1] [mkMeta .all_null [] 7 [0, 5] [4, 2] 1] (by decide) (fun m hm => ?_) _ (((vector Host.little (metaCodec .little 2)).ser [mkMeta .all_null [] 7 [0, 5] [4, 2] 1]).drop 50)
    (by decide) (List.take_append_drop 50 _).symm hfs
  rw [List.mem_singleton.1 hm]
  exact C26_metadata_roundtrip .little 2 .all_null [] 7 [0, 5] [4, 2] 1 rfl rfl (fun d hd => by rcases d with _ | _ | d <;> first | decide | omega) (by decide) (by decide) (by decide)

/-- The file of an array of 2 x 3 numbers, cut anywhere. -/
example (s x : List Nat) (hx : x ≠ []) (hfile : serialize .little 1 (mkHdr 1 [2, 3]) [1, 0, 0, 4, 5, 6] [2 ^ 64 - 1, 2] .dense = .ok (s ++ x)) (dst : List Nat) (junk : Nat → Nat) :
    deserialize .little 1 2 (mkHdr 1 [1, 1]) dst junk s = .ub :=
  C77_chunk_undefined .little 1 [2, 3] [0, 0] (mkHdr 1 [2, 3]) [1, 0, 0, 4, 5, 6]
    { view := ViewOf.own, small := by unfold Small; decide, vd_pos := by decide, dims := by decide, len := by decide, vol := by decide, bits := by decide }
    [2 ^ 64 - 1, 2] (by unfold Small; decide) ⟨2, by decide⟩ (by refine ⟨?_, ?_, trivial⟩ <;> unfold SafeDim <;> decide) .dense (by decide) (fun h => by cases h) s x hx hfile [1, 1] dst junk

/-- There are such files, with more than 90 bytes. -/
example : (serialize .little 1 (mkHdr 1 [2, 3]) [1, 0, 0, 4, 5, 6] [2 ^ 64 - 1, 2] .dense).bind (fun b => .ok (decide (90 < b.length))) = .ok true := by decide +kernel

end Verif.Dist
