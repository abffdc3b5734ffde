import Verif.Stream.Buffer
import Verif.Stream.Props
/-
C86: the buffer that a streamer keeps between calls (NDVecArrayStreamer.hh 76, NDVecArrayStreamer.hxx 77-95, 167-209, 331-377) has no influence on what is written and read.
-/
namespace Verif.Stream
open Verif Verif.ND Verif.Bytes Verif.NullSup

/-! ### Specification -/

/-- The uses of a streamer: writing an array, appending a slice to a file, reading a file into an array. -/
inductive Use where
  | write (h : Hdr) (buf chunk : List Nat) (mode : Mode)
  | append (file : List Nat) (h : Hdr) (buf : List Nat) (axis : Nat) (mode : Mode)
  | read (dims : Nat) (hd : Hdr) (dst : List Nat) (junk : Nat → Nat) (file : List Nat)

/-- What they return: a file, or an array and the unread rest of the file. -/
inductive Got where
  | file (bytes : List Nat)
  | array (a : Hdr × List Nat) (rest : List Nat)
deriving DecidableEq

/-- The result of a use according to the model without buffer. -/
def Use.alone (hst : Host) (vd : Nat) : Use → Res Got
  | .write h buf chunk mode => (serialize hst vd h buf chunk mode).bind fun f => .ok (.file f)
  | .append file h buf axis mode => (appendSlice hst vd file h buf axis mode).bind fun f => .ok (.file f)
  | .read dims hd dst junk file => (deserialize hst vd dims hd dst junk file).bind fun r => .ok (.array r.1 r.2)

/-- The result with a streamer that has the buffer `b`, and its buffer afterwards. -/
def Use.shared (hst : Host) (vd : Nat) : Use → Mem → Res (Got × Mem)
  | .write h buf chunk mode, b => (serializeB hst vd h buf chunk mode b).bind fun r => .ok (.file r.1, r.2)
  | .append file h buf axis mode, b => (appendSliceB hst vd file h buf axis mode b).bind fun r => .ok (.file r.1, r.2)
  | .read dims hd dst junk file, b => (deserializeB hst vd dims hd dst junk b ⟨file, false⟩).bind fun r => .ok (.array r.1 r.2.1.bytes, r.2.2)

/-- One streamer is used for all of them, one after the other. -/
def history (hst : Host) (vd : Nat) : List Use → Mem → Res (List Got × Mem)
  | [], b => .ok ([], b)
  | u :: us, b => (u.shared hst vd b).bind fun r => (history hst vd us r.2).bind fun q => .ok (r.1 :: q.1, q.2)

/-! ### Proof -/

theorem Mem.resize_length (b : Mem) (n : Nat) : (b.resize n).length = 4 * n := by
  unfold Mem.resize
  simp
  omega

theorem Mem.known_some (h : Host) : ∀ (n : Nat) (bs : List Nat), bs.length = 4 * n → Mem.known h (bs.map some) = words h n bs
  | 0, bs, hl => by
    have : bs = [] := List.length_eq_zero_iff.1 hl
    subst this
    rfl
  | n + 1, a :: b :: c :: d :: bs, hl => by
    have := Mem.known_some h n bs (by simp at hl; omega)
    simp only [List.map_cons, Mem.known, words, List.take, List.drop]
    rw [this]
  | n + 1, [], hl => by simp at hl
  | n + 1, [_], hl => by simp at hl; omega
  | n + 1, [_, _], hl => by simp at hl; omega
  | n + 1, [_, _, _], hl => by simp at hl; omega

theorem words_length (h : Host) : ∀ (n : Nat) (bs : List Nat), (words h n bs).length = n
  | 0, _ => rfl
  | n + 1, bs => by simp [words, words_length h n]

theorem Mem.bytes_some : ∀ bs : List Nat, Mem.bytes (bs.map some) = .ok bs
  | [] => rfl
  | a :: bs => by simp [Mem.bytes, Mem.bytes_some bs, Res.ok_bind]

theorem Mem.store_full {b : Mem} {bs : List Nat} (h : b.length = bs.length) : b.store bs = bs.map some := by
  unfold Mem.store
  rw [← h, List.drop_length, List.append_nil]

theorem In.get_ok {α : Type} {s : List Nat} {c : Codec α} {r : α × List Nat} (h : c.deser s = .ok r) : (⟨s, false⟩ : In).get c = .ok (r.1, ⟨r.2, false⟩) := by
  unfold In.get
  rw [if_neg (by simp), h]
  rfl

theorem In.read_ok {s : List Nat} {n : Nat} (h : n ≤ s.length) : (⟨s, false⟩ : In).read n = (s.take n, ⟨s.drop n, false⟩) := by
  unfold In.read
  simp only [Bool.false_eq_true, if_false]
  rw [if_pos h]

theorem In.read_short {s : List Nat} {n : Nat} (h : s.length < n) : (⟨s, false⟩ : In).read n = (s, ⟨[], true⟩) := by
  unfold In.read
  simp only [Bool.false_eq_true, if_false]
  rw [if_neg (by omega)]

/-- A chunk that is complete. -/
theorem readChunkB_ok {h : Host} {vd : Nat} {ha : Hdr} {p : List Nat × List Nat} {s s' buf buf' : List Nat} (b : Mem) (e : readChunk h vd ha p (s, buf) = .ok (s', buf')) :
    ∃ b', readChunkB h vd ha p (⟨s, false⟩, b, buf) = .ok (⟨s', false⟩, b', buf') := by
  unfold readChunk at e
  obtain ⟨m, e1, e⟩ := Res.bind_eq_ok.1 e
  obtain ⟨r, e2, e⟩ := Res.bind_eq_ok.1 e
  unfold takeBytes at e2
  split at e2
  case isFalse => cases e2
  rename_i hlen
  cases e2
  have hr : (m.2.take (4 * m.1.2)).length = 4 * m.1.2 := by simp; omega
  have hs : ((b.resize m.1.2).store (m.2.take (4 * m.1.2))) = (m.2.take (4 * m.1.2)).map some := Mem.store_full (by rw [Mem.resize_length, hr])
  refine ⟨(m.2.take (4 * m.1.2)).map some, ?_⟩
  unfold readChunkB
  rw [In.get_ok e1]
  simp only [Res.ok_bind]
  rw [In.read_ok hlen]
  simp only
  rw [hs, Mem.known_some h m.1.2 _ hr, words_length, Nat.sub_self]
  simp only [Nat.add_zero]
  simp only at e
  obtain ⟨q, e3, e⟩ := Res.bind_eq_ok.1 e
  obtain ⟨x, e4, e⟩ := Res.bind_eq_ok.1 e
  obtain ⟨y, e5, e⟩ := Res.bind_eq_ok.1 e
  rw [e3]
  simp only [Res.ok_bind]
  rw [e4]
  simp only [Res.ok_bind]
  rw [e5]
  simp only [Res.ok_bind]
  cases e
  rfl

theorem readChunksB_ok {h : Host} {vd : Nat} {ha : Hdr} : ∀ (boxes : List (List Nat × List Nat)) {s s' buf buf' : List Nat} (b : Mem), runLoop (readChunk h vd ha) boxes (s, buf) = .ok (s', buf') →
    ∃ b', runLoop (readChunkB h vd ha) boxes (⟨s, false⟩, b, buf) = .ok (⟨s', false⟩, b', buf')
  | [], s, s', buf, buf', b, e => by
    cases e
    exact ⟨b, rfl⟩
  | p :: ps, s, s', buf, buf', b, e => by
    obtain ⟨⟨s1, buf1⟩, e1, e2⟩ := Res.bind_eq_ok.1 e
    obtain ⟨b1, f1⟩ := readChunkB_ok b e1
    obtain ⟨b2, f2⟩ := readChunksB_ok ps b1 e2
    refine ⟨b2, ?_⟩
    simp only [runLoop]
    rw [f1]
    exact f2

theorem deserializeB_ok {h : Host} {vd dims : Nat} {hd : Hdr} {dst : List Nat} {junk : Nat → Nat} {s : List Nat} {r : (Hdr × List Nat) × List Nat} (b : Mem)
    (e : deserialize h vd dims hd dst junk s = .ok r) : ∃ b', deserializeB h vd dims hd dst junk b ⟨s, false⟩ = .ok (r.1, ⟨r.2, false⟩, b') := by
  unfold deserialize at e
  obtain ⟨m, e1, e⟩ := Res.bind_eq_ok.1 e
  obtain ⟨a, e2, e⟩ := Res.bind_eq_ok.1 e
  obtain ⟨boxes, e3, e⟩ := Res.bind_eq_ok.1 e
  obtain ⟨⟨s', buf'⟩, e4, e⟩ := Res.bind_eq_ok.1 e
  obtain ⟨b', f⟩ := readChunksB_ok boxes b e4
  cases e
  refine ⟨b', ?_⟩
  unfold deserializeB
  rw [In.get_ok e1]
  simp only [Res.ok_bind]
  rw [e2]
  simp only [Res.ok_bind]
  rw [e3]
  simp only [Res.ok_bind]
  rw [f]
  rfl

theorem length_flatMap_mem (h : Host) : ∀ ws : List Nat, (ws.flatMap (mem h 4)).length = 4 * ws.length
  | [] => rfl
  | w :: ws => by rw [List.flatMap_cons, List.length_append, length_mem, length_flatMap_mem h ws, List.length_cons]; omega

theorem push_le {cap : Nat} {out ws r : List Nat} (e : push cap out ws = .ok r) : r.length ≤ cap := by
  unfold push at e
  split at e
  case isFalse => cases e
  rename_i hle
  cases e
  rw [List.length_append]
  exact hle

theorem toBuffer_le {post : Nat → Nat} {cap : Nat} : ∀ {vs : List (List Nat)} {out r : List Nat}, out.length ≤ cap → toBuffer post cap vs out = .ok r → r.length ≤ cap
  | [], out, r, hle, e => by cases e; exact hle
  | v :: vs, out, r, _, e => by
    obtain ⟨o, e1, e2⟩ := Res.bind_eq_ok.1 e
    exact toBuffer_le (push_le e1) e2

theorem suppress_le {post : Nat → Nat} {cap vd : Nat} : ∀ {vs : List (List Nat)} {num : Nat} {out r : List Nat}, out.length ≤ cap → suppress post cap vd vs num out = .ok r → r.length ≤ cap
  | [], num, out, r, hle, e => by
    unfold suppress at e
    split at e
    · exact push_le e
    · cases e; exact hle
  | v :: vs, num, out, r, hle, e => by
    unfold suppress at e
    split at e
    · obtain ⟨o, e1, e2⟩ := Res.bind_eq_ok.1 e
      refine suppress_le ?_ e2
      split at e1
      · exact push_le e1
      · cases e1; exact hle
    · obtain ⟨o, e1, e2⟩ := Res.bind_eq_ok.1 e
      obtain ⟨o', e3, e4⟩ := Res.bind_eq_ok.1 e2
      exact suppress_le (push_le e3) e4

/-- What is stored fits into the buffer. -/
theorem chunkWords_le {h : Host} {vd : Nat} {mode : Mode} {hv : Hdr} {buf ws : List Nat} (e : chunkWords h vd mode hv buf = .ok ws) : ws.length ≤ bufferSize vd mode hv.shape := by
  cases mode with
  | automatic => cases e
  | dense =>
    obtain ⟨es, _, e⟩ := Res.bind_eq_ok.1 e
    exact toBuffer_le (Nat.zero_le _) e
  | null_suppressed =>
    obtain ⟨es, _, e⟩ := Res.bind_eq_ok.1 e
    exact suppress_le (Nat.zero_le _) e

theorem writeChunksB_ok {h : Host} {vd : Nat} {ha : Hdr} {buf : List Nat} {mode : Mode} : ∀ (boxes : List (List Nat × List Nat)) {out out' : List Nat} (b : Mem),
    runLoop (fun (p : List Nat × List Nat) out => (chunkWords h vd mode (view ha p.1 p.2) buf).bind fun ws => .ok (out ++ chunkRecord h mode ws)) boxes out = .ok out' →
    ∃ b', runLoop (writeChunkB h vd ha buf mode) boxes (b, out) = .ok (b', out')
  | [], out, out', b, e => by
    cases e
    exact ⟨b, rfl⟩
  | p :: ps, out, out', b, e => by
    obtain ⟨out1, e1, e2⟩ := Res.bind_eq_ok.1 e
    obtain ⟨ws, e3, e1⟩ := Res.bind_eq_ok.1 e1
    cases e1
    obtain ⟨b2, f2⟩ := writeChunksB_ok ps (Mem.store (Mem.resize b (bufferSize vd mode (view ha p.1 p.2).shape)) (ws.flatMap (mem h 4))) e2
    refine ⟨b2, ?_⟩
    simp only [runLoop]
    unfold writeChunkB
    simp only
    rw [e3]
    simp only [Res.ok_bind]
    rw [if_neg (Nat.not_lt.2 (chunkWords_le e3))]
    have : (Mem.store (Mem.resize b (bufferSize vd mode (view ha p.1 p.2).shape)) (ws.flatMap (mem h 4))).take (4 * ws.length) = (ws.flatMap (mem h 4)).map some := by
      unfold Mem.store
      rw [List.take_append_of_le_length (by rw [List.length_map, length_flatMap_mem]; exact Nat.le_refl _), List.take_of_length_le (by rw [List.length_map, length_flatMap_mem]; exact Nat.le_refl _)]
    rw [this, Mem.bytes_some]
    simp only [Res.ok_bind]
    rw [List.append_assoc]
    exact f2

theorem serializeChunksB_ok {h : Host} {vd : Nat} {ha : Hdr} {buf chunk : List Nat} {mode : Mode} {out : List Nat} (b : Mem) (e : serializeChunks h vd ha buf chunk mode = .ok out) :
    ∃ b', serializeChunksB h vd ha buf chunk mode b = .ok (b', out) := by
  unfold serializeChunks at e
  unfold serializeChunksB
  split at e
  case isTrue => cases e
  rename_i hm
  rw [if_neg hm]
  obtain ⟨boxes, e1, e2⟩ := Res.bind_eq_ok.1 e
  rw [e1]
  exact writeChunksB_ok boxes b e2

theorem Use.shared_ok {hst : Host} {vd : Nat} {u : Use} {g : Got} (b : Mem) (e : u.alone hst vd = .ok g) : ∃ b', u.shared hst vd b = .ok (g, b') := by
  cases u with
  | write h buf chunk mode =>
    obtain ⟨f, e1, e2⟩ := Res.bind_eq_ok.1 e
    cases e2
    unfold serialize at e1
    split at e1
    case isTrue => cases e1
    rename_i hw
    obtain ⟨x, e2, e1⟩ := Res.bind_eq_ok.1 e1
    obtain ⟨body, e3, e1⟩ := Res.bind_eq_ok.1 e1
    cases e1
    obtain ⟨b', f'⟩ := serializeChunksB_ok b e3
    refine ⟨b', ?_⟩
    unfold Use.shared serializeB
    simp only
    rw [if_neg hw, e2]
    simp only [Res.ok_bind]
    rw [f']
    rfl
  | append file h buf axis mode =>
    obtain ⟨f, e1, e2⟩ := Res.bind_eq_ok.1 e
    cases e2
    unfold appendSlice at e1
    obtain ⟨m, e2, e1⟩ := Res.bind_eq_ok.1 e1
    split at e1
    case isTrue => cases e1
    rename_i hacc
    obtain ⟨x, e3, e1⟩ := Res.bind_eq_ok.1 e1
    split at e1
    case isTrue => cases e1
    rename_i hcat
    obtain ⟨y, e4, e1⟩ := Res.bind_eq_ok.1 e1
    obtain ⟨body, e5, e1⟩ := Res.bind_eq_ok.1 e1
    cases e1
    obtain ⟨b', f'⟩ := serializeChunksB_ok b e5
    refine ⟨b', ?_⟩
    unfold Use.shared appendSliceB
    simp only
    rw [e2]
    simp only [Res.ok_bind]
    rw [if_neg hacc, e3]
    simp only [Res.ok_bind]
    rw [if_neg hcat, e4]
    simp only [Res.ok_bind]
    rw [f']
    rfl
  | read dims hd dst junk file =>
    obtain ⟨r, e1, e2⟩ := Res.bind_eq_ok.1 e
    cases e2
    obtain ⟨b', f'⟩ := deserializeB_ok b e1
    refine ⟨b', ?_⟩
    unfold Use.shared
    simp only
    rw [f']
    rfl

/-- **C86** (complete files): whatever a streamer has been used for before, each use returns what a streamer without memory returns, as long as that is defined: files are written as by `C15`, `C16`, and
    complete files are read as by `C15`. -/
theorem C86_history_partial (hst : Host) (vd : Nat) : ∀ (us : List Use) (gs : List Got), us.map (Use.alone hst vd) = gs.map .ok → ∀ b : Mem, ∃ b', history hst vd us b = .ok (gs, b')
  | [], [], _, b => ⟨b, rfl⟩
  | [], _ :: _, h, _ => by simp at h
  | _ :: _, [], h, _ => by simp at h
  | u :: us, g :: gs, h, b => by
    simp only [List.map_cons, List.cons.injEq] at h
    obtain ⟨b1, e1⟩ := Use.shared_ok b h.1
    obtain ⟨b2, e2⟩ := C86_history_partial hst vd us gs h.2 b1
    refine ⟨b2, ?_⟩
    simp only [history]
    rw [e1]
    simp only [Res.ok_bind]
    rw [e2]
    rfl

end Verif.Stream
