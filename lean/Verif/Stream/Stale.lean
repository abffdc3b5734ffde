import Verif.Stream.Props86
/-
C86, continued: a file that is incomplete, read with a streamer that has been used before.
-/
namespace Verif.Stream
open Verif Verif.ND Verif.Bytes Verif.NullSup

/-! ### The order of the elements in a file -/

theorem flatMap_range_mul (p : Nat) : ∀ s : Nat, (List.range s).flatMap (fun i => (List.range p).map (i * p + ·)) = List.range (s * p)
  | 0 => by simp
  | s + 1 => by
    rw [List.range_succ, List.flatMap_append, flatMap_range_mul p s, Nat.succ_mul, List.range_add]
    simp

theorem elemLoop_lin : ∀ P : List Nat, (arrayElemLoop P).map (lin P) = List.range (prod P)
  | [] => by simp [arrayElemLoop, elemLoop, lin, prod]
  | s :: ss => by
    have ih := elemLoop_lin ss
    unfold arrayElemLoop at ih ⊢
    simp only [List.map_cons, elemLoop]
    rw [List.map_flatMap, forRange_eq, Nat.sub_zero, ← List.range_eq_range', prod, ← flatMap_range_mul]
    congr 1
    funext i
    rw [← ih, List.map_map, List.map_map]
    rfl

theorem blocks_flat (vd : Nat) (buf : List Nat) : ∀ n : Nat, (List.range n).flatMap (fun k => (buf.drop (vd * k)).take vd) = buf.take (vd * n)
  | 0 => by simp
  | n + 1 => by
    rw [List.range_succ, List.flatMap_append, blocks_flat vd buf n, Nat.mul_succ, List.take_add]
    simp

/-- The elements of an array that owns its data, one after the other, are its data. -/
theorem elems_flat {vd : Nat} {P buf : List Nat} (hb : buf.length = volume vd P) : (elemsOf P fun i => blk vd P buf i).flatMap id = buf := by
  unfold elemsOf
  rw [show (fun i => blk vd P buf i) = (fun k => (buf.drop (vd * k)).take vd) ∘ lin P from rfl, ← List.map_map, elemLoop_lin, List.flatMap_map]
  simp only [id]
  rw [blocks_flat, List.take_of_length_le (by rw [hb, volume_eq, Nat.mul_comm]; exact Nat.le_refl _)]

/-- Arrays with the same elements have the same data. -/
theorem data_ext {vd : Nat} {P a b : List Nat} (ha : a.length = volume vd P) (hb : b.length = volume vd P)
    (h : ∀ i, ValidInd P i → ND.read vd (mkHdr vd P) a i = ND.read vd (mkHdr vd P) b i) : a = b := by
  rw [← elems_flat ha, ← elems_flat hb]
  congr 1
  unfold elemsOf
  refine List.map_congr_left fun i hi => ?_
  have hv := mem_arrayElemLoop.1 hi
  have := h i hv
  rw [read_own ha hv, read_own hb hv] at this
  exact Res.ok.inj this

/-! ### One chunk -/

theorem chunkDim_one {e c : Nat} (h0 : 0 < e) (h : e ≤ c) : chunkDimSpec 0 e c = [(0, e)] := by
  rw [chunkDimSpec, dif_pos ⟨h0, by omega⟩, Nat.zero_add, Nat.min_eq_right h, chunkDimSpec, dif_neg (by omega)]

theorem chunkSpec_one : ∀ {P chunk : List Nat}, (∀ e ∈ P, 0 < e) → LeVec P chunk → chunkSpec (P.map fun _ => 0) P chunk = [(P.map fun _ => 0, P)]
  | [], [], _, _ => rfl
  | [], _ :: _, _, h => by have := h.1; simp at this
  | _ :: _, [], _, h => by have := h.1; simp at this
  | e :: es, c :: cs, h0, h => by
    have hr : LeVec es cs := ⟨by have := h.1; simpa using this, fun d hd => by have := h.2 (d + 1) (by simpa using hd); simpa using this⟩
    have h1 : e ≤ c := by have := h.2 0 (by simp); simpa using this
    simp only [List.map_cons, chunkSpec]
    rw [chunkDim_one (h0 e (by simp)) h1, chunkSpec_one (fun x hx => h0 x (by simp [hx])) hr]
    rfl

theorem permits_one : ∀ {P chunk : List Nat}, LeVec P chunk → permitsEqual P chunk = .ok true
  | [], _, _ => by unfold permitsEqual; rfl
  | _ :: _, [], h => by have := h.1; simp at this
  | e :: es, c :: cs, h => by
    have hr : LeVec es cs := ⟨by have := h.1; simpa using this, fun d hd => by have := h.2 (d + 1) (by simpa using hd); simpa using this⟩
    have h1 : e ≤ c := by have := h.2 0 (by simp); simpa using this
    unfold permitsEqual
    rw [if_neg (by omega)]
    exact permits_one hr

theorem subVec_zeros : ∀ P : List Nat, subVec P (P.map fun _ => 0) = P
  | [] => rfl
  | a :: P => by
    have := subVec_zeros P
    unfold subVec at this ⊢
    simp [this]

/-- What a file with one dense chunk begins with: the metadata of the array and those of the chunk. -/
def oneHead (hst : Host) (vd : Nat) (P chunk : List Nat) : List Nat :=
  (sMeta hst P.length).ser ⟨chunk, P, 0⟩ ++ (cMeta hst).ser (1, volume vd P)

/-- The data in the file. -/
def oneData (hst : Host) (buf : List Nat) : List Nat := (buf.map (htonl hst)).flatMap (mem hst 4)

theorem oneData_length (hst : Host) (buf : List Nat) : (oneData hst buf).length = 4 * buf.length := by
  unfold oneData
  rw [length_flatMap_mem, List.length_map]

theorem file_one (hst : Host) {vd : Nat} {P buf : List Nat} (g : Given vd P (P.map fun _ => 0) (mkHdr vd P) buf) {chunk : List Nat} (hwf : ∃ c ∈ chunk, c ≠ 2 ^ 64 - 1)
    (hsafe : Safe (P.map fun _ => 0) P chunk) (h0 : ∀ e ∈ P, 0 < e) (hle : LeVec P chunk) :
    serialize hst vd (mkHdr vd P) buf chunk .dense = .ok (oneHead hst vd P chunk ++ oneData hst buf) := by
  unfold serialize
  rw [if_neg (by rw [wellFormed_iff.2 hwf]; simp), show (mkHdr vd P).shape = P from rfl, permits_one hle]
  simp only [Res.ok_bind]
  rw [serializeChunks_eq hst g chunk hsafe .dense (by decide)]
  simp only [Res.ok_bind]
  rw [show (mkHdr vd P).shape = P from rfl, chunkSpec_one h0 hle]
  have he : (elemsOf (subVec P (P.map fun _ => 0)) fun k => elemFn vd P (P.map fun _ => 0) buf (addVec (P.map fun _ => 0) k)) = elemsOf P fun i => blk vd P buf i := by
    rw [subVec_zeros]
    unfold elemsOf
    refine List.map_congr_left fun i hi => ?_
    have hv := mem_arrayElemLoop.1 hi
    unfold elemFn
    rw [zero_addVec hv.1, zero_addVec hv.1]
  have hw : encW hst vd .dense (elemsOf P fun i => blk vd P buf i) = buf.map (htonl hst) := by
    refine Eq.trans ?_ (congrArg (List.map (htonl hst)) (elems_flat g.len))
    simp only [encW]
    rw [List.map_flatMap]
    rfl
  simp only [List.map_cons, List.map_nil, List.flatMap_cons, List.flatMap_nil, List.append_nil, boxRecord]
  rw [he, hw]
  unfold oneHead oneData chunkRecord
  rw [List.length_map, g.len, List.append_assoc]
  rfl

/-! ### Reading a file that ends early -/

/-- The stream ends within the data of a chunk: the rest of the buffer is what it was before. -/
theorem readChunkB_short {h : Host} {vd : Nat} {ha : Hdr} {p : List Nat × List Nat} {k n : Nat} {T D buf buf' : List Nat} (hk : k < 2 ^ 64) (hn : n < 2 ^ 64) (hD : D.length = 4 * n) (hT : T.length < 4 * n)
    (e : readChunk h vd ha p ((cMeta h).ser (k, n) ++ (T ++ D.drop T.length), buf) = .ok ([], buf')) :
    readChunkB h vd ha p (⟨(cMeta h).ser (k, n) ++ T, false⟩, D.map some, buf) = .ok (⟨[], true⟩, (T ++ D.drop T.length).map some, buf') := by
  unfold readChunk at e
  rw [cMeta_rt h k n hk hn] at e
  simp only [Res.ok_bind] at e
  have hl : (T ++ D.drop T.length).length = 4 * n := by simp; omega
  unfold takeBytes at e
  rw [if_pos (Nat.le_of_eq hl.symm), List.take_of_length_le (Nat.le_of_eq hl), List.drop_of_length_le (Nat.le_of_eq hl)] at e
  simp only [Res.ok_bind] at e
  unfold readChunkB
  rw [In.get_ok (cMeta_rt h k n hk hn T)]
  simp only [Res.ok_bind]
  rw [In.read_short hT]
  simp only
  have hs : (Mem.resize (D.map some) n).store T = (T ++ D.drop T.length).map some := by
    unfold Mem.resize Mem.store
    rw [List.length_map, hD, Nat.sub_self, List.replicate_zero, List.append_nil, List.take_of_length_le (by simp; omega), List.map_append, List.map_drop]
  rw [hs, Mem.known_some h n _ hl, words_length, Nat.sub_self]
  simp only [Nat.add_zero]
  obtain ⟨q, e3, e⟩ := Res.bind_eq_ok.1 e
  obtain ⟨x, e4, e⟩ := Res.bind_eq_ok.1 e
  obtain ⟨y, e5, e⟩ := Res.bind_eq_ok.1 e
  rw [e3]
  simp only [Res.ok_bind]
  rw [e4]
  simp only [Res.ok_bind]
  rw [e5]
  simp only [Res.ok_bind]
  cases e
  rfl

/-- The data of the chunk are complete: the buffer holds them afterwards. -/
theorem readChunkB_full {h : Host} {vd : Nat} {ha : Hdr} {p : List Nat × List Nat} {k n : Nat} {D buf buf' : List Nat} (b : Mem) (hk : k < 2 ^ 64) (hn : n < 2 ^ 64) (hD : D.length = 4 * n)
    (e : readChunk h vd ha p ((cMeta h).ser (k, n) ++ D, buf) = .ok ([], buf')) :
    readChunkB h vd ha p (⟨(cMeta h).ser (k, n) ++ D, false⟩, b, buf) = .ok (⟨[], false⟩, D.map some, buf') := by
  obtain ⟨b', e'⟩ := readChunkB_ok b e
  rw [e']
  unfold readChunkB at e'
  rw [In.get_ok (cMeta_rt h k n hk hn D)] at e'
  simp only [Res.ok_bind] at e'
  obtain ⟨q, e3, e'⟩ := Res.bind_eq_ok.1 e'
  obtain ⟨x, e4, e'⟩ := Res.bind_eq_ok.1 e'
  obtain ⟨y, e5, e'⟩ := Res.bind_eq_ok.1 e'
  have : b' = (b.resize n).store (((⟨D, false⟩ : In).read (4 * n)).1) := (congrArg (fun t => t.2.1) (Res.ok.inj e')).symm
  rw [this, In.read_ok (Nat.le_of_eq hD.symm), List.take_of_length_le (Nat.le_of_eq hD), Mem.store_full (by rw [Mem.resize_length, hD])]

theorem fromBuffer_less (pre : Nat → Nat) (vd : Nat) : ∀ (n : Nat) (ws : List Nat), ws.length < vd * n → fromBuffer pre vd n ws = .ub
  | 0, ws, h => by omega
  | n + 1, ws, h => by
    unfold fromBuffer readVec
    split
    · rename_i hv
      simp only [Res.ok_bind]
      rw [fromBuffer_less pre vd n _ (by rw [List.length_drop]; rw [Nat.mul_succ] at h; omega)]
      rfl
    · rfl

theorem Mem.known_mixed (h : Host) (j : Nat) : ∀ (n : Nat) (bs : List Nat), bs.length = 4 * n → Mem.known h (bs.map some ++ List.replicate j none) = words h n bs
  | 0, bs, hl => by
    have : bs = [] := List.length_eq_zero_iff.1 hl
    subst this
    cases j <;> simp [Mem.known, words, List.replicate_succ]
  | n + 1, a :: b :: c :: d :: bs, hl => by
    have := Mem.known_mixed h j n bs (by simp at hl; omega)
    simp only [List.map_cons, List.cons_append, Mem.known, words, List.take, List.drop]
    rw [this]
  | n + 1, [], hl => by simp at hl
  | n + 1, [_], hl => by simp at hl; omega
  | n + 1, [_, _], hl => by simp at hl; omega
  | n + 1, [_, _, _], hl => by simp at hl; omega

/-- The same with a streamer that has not been used. -/
theorem readChunkB_fresh {h : Host} {vd : Nat} {ha : Hdr} {p : List Nat × List Nat} {n m j : Nat} {T buf : List Nat} (hn : n < 2 ^ 64) (hT : T.length = 4 * m) (hm : m < n) (hv : vd * numElems (view ha p.1 p.2).shape = n) :
    readChunkB h vd ha p (⟨(cMeta h).ser (1, n) ++ T, false⟩, List.replicate j none, buf) = .ub := by
  unfold readChunkB
  rw [In.get_ok (cMeta_rt h 1 n (by decide) hn T)]
  simp only [Res.ok_bind]
  rw [In.read_short (by omega)]
  have hs : (Mem.resize (List.replicate j none) n).store T = T.map some ++ List.replicate (4 * n - 4 * m) none := by
    unfold Mem.resize Mem.store
    rw [List.length_replicate, List.take_replicate, List.replicate_append_replicate, List.drop_replicate, hT]
    congr 2
    omega
  simp only [if_true]
  rw [hs, Mem.known_mixed h _ m T hT, fromBuffer_less _ _ _ _ (by rw [words_length, hv]; exact hm)]
  rfl

/-- Reading a file with one chunk, with and without a buffer. -/
theorem deserialize_one (hst : Host) {vd : Nat} {P chunk : List Nat} (hP : Small P) (hc : Small chunk) (hsafe : Safe (P.map fun _ => 0) P chunk) (h0 : ∀ e ∈ P, 0 < e) (hle : LeVec P chunk)
    (Q0 dst : List Nat) (junk : Nat → Nat) (s : List Nat) :
    deserialize hst vd P.length (mkHdr vd Q0) dst junk ((sMeta hst P.length).ser ⟨chunk, P, 0⟩ ++ s)
        = ((readChunk hst vd (mkHdr vd P) (P.map fun _ => 0, P) (s, (List.range (volume vd P)).map fun k => dst.getD k (junk k))).bind fun st => .ok ((mkHdr vd P, st.2), st.1)) ∧
      ∀ b : Mem, deserializeB hst vd P.length (mkHdr vd Q0) dst junk b ⟨(sMeta hst P.length).ser ⟨chunk, P, 0⟩ ++ s, false⟩
        = ((readChunkB hst vd (mkHdr vd P) (P.map fun _ => 0, P) (⟨s, false⟩, b, (List.range (volume vd P)).map fun k => dst.getD k (junk k))).bind fun st => .ok ((mkHdr vd P, st.2.2), st.1, st.2.1)) := by
  have hm := sMeta_rt hst P.length ⟨chunk, P, 0⟩ (by have := hle.1; simp only; omega) rfl hc hP (show 0 < 2 ^ 64 by decide) s
  have hl : Res.ofLoop (arrayChunkLoop (fuelFor (mkHdr vd P).shape) (mkHdr vd P).shape chunk) = .ok [(P.map fun _ => 0, P)] := by
    rw [show (mkHdr vd P).shape = P from rfl, arrayChunkLoop, chunkLoop_eq _ hsafe lt_fuelFor, chunkSpec_one h0 hle]
    rfl
  constructor
  · unfold deserialize
    rw [hm]
    simp only [Res.ok_bind]
    rw [resize_own]
    simp only [Res.ok_bind]
    rw [hl]
    simp only [Res.ok_bind, runLoop]
    generalize readChunk hst vd (mkHdr vd P) (P.map fun _ => 0, P) (s, (List.range (volume vd P)).map fun k => dst.getD k (junk k)) = r
    cases r <;> rfl
  · intro b
    unfold deserializeB
    rw [In.get_ok hm]
    simp only [Res.ok_bind]
    rw [resize_own]
    simp only [Res.ok_bind]
    rw [hl]
    simp only [Res.ok_bind, runLoop]
    generalize readChunkB hst vd (mkHdr vd P) (P.map fun _ => 0, P) (⟨s, false⟩, b, (List.range (volume vd P)).map fun k => dst.getD k (junk k)) = r
    cases r <;> rfl

/-- A complete file with one chunk reads back. -/
theorem readChunk_one (hst : Host) {vd : Nat} {P buf : List Nat} (g : Given vd P (P.map fun _ => 0) (mkHdr vd P) buf) {chunk : List Nat} (hc : Small chunk) (hwf : ∃ c ∈ chunk, c ≠ 2 ^ 64 - 1)
    (hsafe : Safe (P.map fun _ => 0) P chunk) (h0 : ∀ e ∈ P, 0 < e) (hle : LeVec P chunk) (dst : List Nat) (junk : Nat → Nat) :
    readChunk hst vd (mkHdr vd P) (P.map fun _ => 0, P) ((cMeta hst).ser (1, volume vd P) ++ oneData hst buf, (List.range (volume vd P)).map fun k => dst.getD k (junk k)) = .ok ([], buf) := by
  obtain ⟨bytes, e, k⟩ := C15_round_trip hst vd P _ (mkHdr vd P) buf g chunk hc hwf hsafe .dense (by decide) (by intro h; cases h)
  rw [file_one hst g hwf hsafe h0 hle] at e
  cases e
  obtain ⟨out, k1, k2, k3⟩ := k P dst junk []
  have ho : out = buf := by
    refine data_ext (P := P) k2 g.len fun i hi => ?_
    obtain ⟨v, v', r1, r2, r3, _⟩ := k3 i hi
    have := r3 rfl
    subst this
    exact r2.trans r1.symm
  subst ho
  rw [List.append_nil] at k1
  unfold oneHead at k1
  rw [List.append_assoc] at k1
  rw [show (mkHdr vd P).shape = P from rfl, (deserialize_one hst g.small hc hsafe h0 hle P dst junk _).1] at k1
  obtain ⟨st, f1, f2⟩ := Res.bind_eq_ok.1 k1
  rw [f1]
  have a1 := congrArg (fun t => t.1.2) (Res.ok.inj f2)
  have a2 := congrArg (fun t => t.2) (Res.ok.inj f2)
  simp only at a1 a2
  rw [← a1, ← a2]

/-- C86 does not hold for incomplete files: of two arrays of the same shape, each written densely as one chunk, the file of the second ends after `m` values. A streamer that has just read the file of the first
    reads it without any sign of an error, and returns an array that was never written: `m` values of the second, followed by values of the first. With a streamer that has not been used, the same
    call is undefined behaviour. -/
theorem C86_truncated_stale (hst : Host) (vd : Nat) (P a b chunk : List Nat) (ga : Given vd P (P.map fun _ => 0) (mkHdr vd P) a) (gb : Given vd P (P.map fun _ => 0) (mkHdr vd P) b) (hc : Small chunk)
    (hwf : ∃ c ∈ chunk, c ≠ 2 ^ 64 - 1) (hsafe : Safe (P.map fun _ => 0) P chunk) (h0 : ∀ e ∈ P, 0 < e) (hle : LeVec P chunk) :
    ∃ fa fb, serialize hst vd (mkHdr vd P) a chunk .dense = .ok fa ∧ serialize hst vd (mkHdr vd P) b chunk .dense = .ok fb ∧
      ∀ m < a.length, ∀ (Q1 dst1 : List Nat) (junk1 : Nat → Nat),
        (∀ (Q0 dst : List Nat) (junk : Nat → Nat) (mem : Mem), ∃ mem',
          history hst vd [.read P.length (mkHdr vd Q0) dst junk fa, .read P.length (mkHdr vd Q1) dst1 junk1 (fb.take (fb.length - 4 * (a.length - m)))] mem
            = .ok ([.array (mkHdr vd P, a) [], .array (mkHdr vd P, b.take m ++ a.drop m) []], mem')) ∧
        (Use.read P.length (mkHdr vd Q1) dst1 junk1 (fb.take (fb.length - 4 * (a.length - m)))).shared hst vd Mem.fresh = .ub := by
  have hab : b.length = a.length := by rw [gb.len, ga.len]
  have hvol : volume vd P < 2 ^ 64 := by have := ga.vol; omega
  refine ⟨_, _, file_one hst ga hwf hsafe h0 hle, file_one hst gb hwf hsafe h0 hle, fun m hm Q1 dst1 junk1 => ?_⟩
  have gc : Given vd P (P.map fun _ => 0) (mkHdr vd P) (b.take m ++ a.drop m) :=
    { ga with
      len := by rw [← ga.len]; simp; omega
      bits := fun w hw => by
        rcases List.mem_append.1 hw with h | h
        · exact gb.bits w (List.mem_of_mem_take h)
        · exact ga.bits w (List.mem_of_mem_drop h) }
  have hTl : (oneData hst (b.take m)).length = 4 * m := by rw [oneData_length, List.length_take]; omega
  have hsplit : ∀ l : List Nat, m ≤ l.length → (oneData hst l).drop (4 * m) = oneData hst (l.drop m) ∧ (oneData hst l).take (4 * m) = oneData hst (l.take m) := by
    intro l hl
    have e : oneData hst l = oneData hst (l.take m) ++ oneData hst (l.drop m) := by
      unfold oneData
      rw [← List.flatMap_append, ← List.map_append, List.take_append_drop]
    have hl' : (oneData hst (l.take m)).length = 4 * m := by rw [oneData_length, List.length_take]; omega
    constructor
    · rw [e, ← hl', List.drop_left]
    · rw [e, ← hl', List.take_left]
  have hshort : (oneHead hst vd P chunk ++ oneData hst b).take ((oneHead hst vd P chunk ++ oneData hst b).length - 4 * (a.length - m)) = oneHead hst vd P chunk ++ oneData hst (b.take m) := by
    rw [List.length_append, oneData_length, hab, show (oneHead hst vd P chunk).length + 4 * a.length - 4 * (a.length - m) = (oneHead hst vd P chunk).length + 4 * m from by omega, List.take_append,
      List.take_of_length_le (by omega), Nat.add_sub_cancel_left, (hsplit b (by omega)).2]
  rw [hshort]
  constructor
  · intro Q0 dst junk mem
    have ra := readChunk_one hst ga hc hwf hsafe h0 hle dst junk
    have rc := readChunk_one hst gc hc hwf hsafe h0 hle dst1 junk1
    have hcd : oneData hst (b.take m ++ a.drop m) = oneData hst (b.take m) ++ (oneData hst a).drop (oneData hst (b.take m)).length := by
      rw [hTl, (hsplit a (by omega)).1]
      unfold oneData
      rw [← List.flatMap_append, ← List.map_append]
    rw [hcd] at rc
    have hD : (oneData hst a).length = 4 * volume vd P := by rw [oneData_length, ga.len]
    have sc := readChunkB_short (by decide) hvol hD (by rw [hTl, ← ga.len]; omega) rc
    have sa := readChunkB_full mem (by decide) hvol hD ra
    refine ⟨(oneData hst (b.take m) ++ (oneData hst a).drop (oneData hst (b.take m)).length).map some, ?_⟩
    simp only [history, Use.shared]
    unfold oneHead
    rw [List.append_assoc, List.append_assoc, (deserialize_one hst ga.small hc hsafe h0 hle Q0 dst junk _).2 mem, sa]
    simp only [Res.ok_bind]
    rw [(deserialize_one hst ga.small hc hsafe h0 hle Q1 dst1 junk1 _).2 _, sc]
    rfl
  · unfold Use.shared oneHead
    simp only
    rw [List.append_assoc, (deserialize_one hst ga.small hc hsafe h0 hle Q1 dst1 junk1 _).2 Mem.fresh]
    unfold Mem.fresh
    rw [readChunkB_fresh (m := m) hvol hTl (by rw [← ga.len]; exact hm) (by
      rw [(C04_view_step (S := Nat) vd P _ (mkHdr vd P) ga.small ViewOf.own (P.map fun _ => 0) P ⟨by simp, fun d hd => by simp only [List.getD_eq_getElem?_getD, List.getElem?_map]; cases P[d]? <;> simp⟩ ⟨rfl, fun _ _ => Nat.le_refl _⟩).1, subVec_zeros, volume, Nat.mul_comm])]
    rfl

namespace Ex86

/-- Two arrays of shape [2, 2] written as one chunk; see the examples below. -/
def fileA : List Nat := oneHead .little 1 [2, 2] [2, 2] ++ oneData .little [1, 2, 3, 4]
def fileB : List Nat := oneHead .little 1 [2, 2] [2, 2] ++ oneData .little [5, 6, 7, 8]

example : serialize .little 1 (mkHdr 1 [2, 2]) [1, 2, 3, 4] [2, 2] .dense = .ok fileA := by decide +kernel
example : serialize .little 1 (mkHdr 1 [2, 2]) [5, 6, 7, 8] [2, 2] .dense = .ok fileB := by decide +kernel

theorem given (l : List Nat) (hl : l.length = 4) (hb : ∀ w ∈ l, w < 2 ^ 32) : Given 1 [2, 2] ([2, 2].map fun _ => 0) (mkHdr 1 [2, 2]) l :=
  ⟨ViewOf.own, by unfold Small; decide, by decide, by decide, by rw [hl]; decide, by decide, hb⟩

/-- The hypotheses of `C86_truncated_stale` are met: the file of [[5, 6], [7, 8]] ends after two values, and [[5, 6], [3, 4]] is read. -/
example : ∃ mem', history .little 1 [.read 2 (mkHdr 1 [2, 2]) [] (fun _ => 0) fileA, .read 2 (mkHdr 1 [2, 2]) [] (fun _ => 0) (fileB.take (fileB.length - 8))] Mem.fresh
    = .ok ([.array (mkHdr 1 [2, 2], [1, 2, 3, 4]) [], .array (mkHdr 1 [2, 2], [5, 6, 3, 4]) []], mem') := by
  obtain ⟨fa, fb, e1, e2, k⟩ := C86_truncated_stale .little 1 [2, 2] [1, 2, 3, 4] [5, 6, 7, 8] [2, 2] (given _ rfl (by decide)) (given _ rfl (by decide)) (by unfold Small; decide) ⟨2, by decide, by decide⟩
    (by simp [Safe, SafeDim]) (by decide) ⟨rfl, fun _ _ => Nat.le_refl _⟩
  have h1 : fa = fileA := Res.ok.inj (e1.symm.trans (by decide +kernel))
  have h2 : fb = fileB := Res.ok.inj (e2.symm.trans (by decide +kernel))
  subst h1 h2
  exact (k 2 (by decide) [2, 2] [] fun _ => 0).1 [2, 2] [] (fun _ => 0) Mem.fresh

/-- The hypotheses of `C86_history_partial` are met by writing, reading and writing again with one streamer. -/
example : ∃ mem', history .little 1 [.write (mkHdr 1 [2, 2]) [1, 2, 3, 4] [2, 2] .dense, .read 2 (mkHdr 1 [1, 1]) [] (fun _ => 0) fileA, .write (mkHdr 1 [2, 2]) [5, 6, 7, 8] [2, 2] .dense] Mem.fresh
    = .ok ([.file fileA, .array (mkHdr 1 [2, 2], [1, 2, 3, 4]) [], .file fileB], mem') :=
  C86_history_partial .little 1 _ _ (by decide +kernel) Mem.fresh

end Ex86

end Verif.Stream
