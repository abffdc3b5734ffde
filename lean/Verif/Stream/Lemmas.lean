import Verif.Stream.Streamer
import Verif.Stream.NullSupProps
import Verif.Array.Props3
import Verif.Iter.Props
namespace Verif.Stream
open Verif Verif.ND Verif.Bytes Verif.NullSup

/-! ### metadata -/

theorem sMeta_rt (h : Host) (dims : Nat) (m : SMeta) (h1 : m.ser_chunk.length = dims) (h2 : m.array_shape.length = dims)
    (s1 : Small m.ser_chunk) (s2 : Small m.array_shape) (h3 : m.access < 2 ^ 64) : RoundTrips (sMeta h dims) m := by
  intro rest
  simp only [sMeta]
  rw [List.append_assoc, List.append_assoc,
    C11_array dims (u64 h) m.ser_chunk h1 (fun x hx => (C10_u64 h x (s1 x hx)).2.1)]
  simp only [Res.ok_bind]
  rw [C11_array dims (u64 h) m.array_shape h2 (fun x hx => (C10_u64 h x (s2 x hx)).2.1)]
  simp only [Res.ok_bind]
  rw [(C10_u64 h m.access h3).2.1]
  rfl

theorem cMeta_rt (h : Host) (a b : Nat) (ha : a < 2 ^ 64) (hb : b < 2 ^ 64) : RoundTrips (cMeta h) (a, b) := by
  intro rest
  simp only [cMeta]
  rw [List.append_assoc, (C10_u64 h a ha).2.1]
  simp only [Res.ok_bind]
  rw [(C10_u64 h b hb).2.1]
  rfl

theorem length_flatMap_const {α : Type} (f : α → List Nat) (n : Nat) (hf : ∀ a, (f a).length = n) :
    ∀ l : List α, (l.flatMap f).length = l.length * n
  | [] => by simp
  | a :: l => by
      rw [List.flatMap_cons, List.length_append, length_flatMap_const f n hf l, hf, List.length_cons, Nat.succ_mul]
      omega

theorem sMeta_length (h : Host) (dims : Nat) (m : SMeta) (h1 : m.ser_chunk.length = dims) (h2 : m.array_shape.length = dims) :
    ((sMeta h dims).ser m).length = dims * 8 + dims * 8 + 8 := by
  have hu : ∀ v, ((u64 h).ser v).length = 8 := fun v => length_mem h 8 _
  simp only [sMeta, array, List.length_append]
  rw [length_flatMap_const _ 8 hu, length_flatMap_const _ 8 hu, hu, h1, h2]

/-! ### words on disk -/

theorem unmem_mem (h : Host) (w : Nat) (hw : w < 2 ^ 32) : unmem h (mem h 4 w) = w := by
  have e : w % 256 ^ 4 = w := Nat.mod_eq_of_lt hw
  cases h
  · simp only [unmem, mem]; rw [leVal_leBytes, e]
  · simp only [unmem, mem, List.reverse_reverse]; rw [leVal_leBytes, e]

theorem words_mem (h : Host) : ∀ (ws : List Nat), (∀ w ∈ ws, w < 2 ^ 32) →
    words h ws.length (ws.flatMap (mem h 4)) = ws
  | [], _ => rfl
  | w :: ws, hw => by
      have hlen : (mem h 4 w).length = 4 := length_mem h 4 w
      rw [List.length_cons, words, List.flatMap_cons, List.take_append_of_le_length (by omega),
        List.take_of_length_le (by omega), List.drop_append_of_le_length (by omega), List.drop_of_length_le (by omega),
        List.nil_append, words_mem h ws (fun x hx => hw x (by simp [hx])), unmem_mem h w (hw w (by simp))]

theorem htonl_lt' (h : Host) (w : Nat) (hw : w < 2 ^ 32) : htonl h w < 2 ^ 32 := by
  cases h
  · exact htonl_lt w
  · exact hw

theorem encFrom_lt (h : Host) (vd : Nat) : ∀ (vs : List (List Nat)), (∀ v ∈ vs, ∀ w ∈ v, w < 2 ^ 32) → ∀ num, num < 2 ^ 32 →
    ∀ w ∈ encFrom (htonl h) vd vs num, w < 2 ^ 32
  | [], _, num, hn, w, hw => by
      unfold encFrom at hw
      split at hw
      · rw [List.mem_singleton] at hw; rw [hw]; exact htonl_lt' h _ hn
      · simp at hw
  | v :: vs, hv, num, hn, w, hw => by
      have ih := encFrom_lt h vd vs (fun x hx => hv x (by simp [hx]))
      unfold encFrom at hw
      split at hw
      · rcases List.mem_append.1 hw with hw | hw
        · split at hw
          · rw [(List.mem_replicate.1 hw).2]; exact htonl_lt' h _ (by decide)
          · simp at hw
        · exact ih _ (Nat.mod_lt _ (by decide)) w hw
      · rcases List.mem_append.1 hw with hw | hw
        · split at hw
          · rw [List.mem_singleton] at hw; rw [hw]; exact htonl_lt' h _ hn
          · simp at hw
        · rcases List.mem_append.1 hw with hw | hw
          · obtain ⟨x, hx, rfl⟩ := List.mem_map.1 hw
            exact htonl_lt' h _ (hv v (by simp) x hx)
          · exact ih 0 (by decide) w hw

/-- The words of a chunk with elements `es`. -/
def encW (h : Host) (vd : Nat) (mode : Mode) (es : List (List Nat)) : List Nat :=
  match mode with
  | .null_suppressed => encFrom (htonl h) vd es 0
  | _ => es.flatMap (·.map (htonl h))

/-- What a stored element reads back as. -/
def gMode (mode : Mode) (v : List Nat) : List Nat :=
  match mode with
  | .null_suppressed => canonV v
  | _ => v

theorem encW_lt (h : Host) (vd : Nat) (mode : Mode) (es : List (List Nat)) (hel : Elems vd es) :
    ∀ w ∈ encW h vd mode es, w < 2 ^ 32 := by
  have dense : ∀ w ∈ es.flatMap (·.map (htonl h)), w < 2 ^ 32 := by
    intro w hw
    obtain ⟨v, hv, hw⟩ := List.mem_flatMap.1 hw
    obtain ⟨x, hx, rfl⟩ := List.mem_map.1 hw
    exact htonl_lt' h _ ((hel v hv).2 x hx)
  cases mode
  · exact dense
  · exact dense
  · exact encFrom_lt h vd es (fun v hv => (hel v hv).2) 0 (by decide)

theorem length_dense (h : Host) (vd : Nat) (es : List (List Nat)) (hel : ∀ v ∈ es, v.length = vd) :
    (es.flatMap (·.map (htonl h))).length = es.length * vd := by
  induction es with
  | nil => simp
  | cons v es ih =>
    rw [List.flatMap_cons, List.length_append, ih (fun x hx => hel x (by simp [hx])), List.length_map, hel v (by simp),
      List.length_cons, Nat.succ_mul]
    omega

theorem length_encW (h : Host) (vd : Nat) (mode : Mode) (es : List (List Nat)) (hel : ∀ v ∈ es, v.length = vd) :
    (encW h vd mode es).length ≤ es.length * vd + (es.length + 1) / 2 := by
  have hd := length_dense h vd es hel
  cases mode
  · simp only [encW]; omega
  · simp only [encW]; omega
  · have := encFrom_length (htonl h) vd es hel 0
    rw [if_pos rfl] at this
    exact this

theorem toBuffer_eq (post : Nat → Nat) (cap : Nat) : ∀ (es : List (List Nat)) (out : List Nat),
    out.length + (es.flatMap (·.map post)).length ≤ cap → toBuffer post cap es out = .ok (out ++ es.flatMap (·.map post))
  | [], out, _ => by simp [toBuffer]
  | v :: es, out, hc => by
      rw [List.flatMap_cons, List.length_append] at hc
      rw [toBuffer, push, if_pos (by omega)]
      simp only [Res.ok_bind]
      rw [toBuffer_eq post cap es _ (by rw [List.length_append]; omega), List.flatMap_cons, List.append_assoc]

theorem fromBuffer_eq (h : Host) (vd : Nat) : ∀ (es : List (List Nat)), Elems vd es →
    fromBuffer (htonl h) vd es.length (es.flatMap (·.map (htonl h))) = .ok (es, [])
  | [], _ => rfl
  | v :: es, hel => by
      have hv := hel v (by simp)
      rw [List.length_cons, fromBuffer, List.flatMap_cons, readVec_append _ _ _ _ (by rw [List.length_map, hv.1])]
      simp only [Res.ok_bind]
      rw [fromBuffer_eq h vd es (fun x hx => hel x (by simp [hx])), map_id_of (htonl_inv h) v hv.2]
      rfl

theorem noHugeRun_of_length {es : List (List Nat)} (h : es.length < 2 ^ 32) : NoHugeRun es := by
  intro a run b he _
  have := congrArg List.length he
  simp at this
  omega

/-- Decoding the words of a chunk. -/
theorem decode_encW (h : Host) (vd : Nat) (mode : Mode) (hm : mode ≠ .automatic) (es : List (List Nat)) (hel : Elems vd es)
    (hn : mode = .null_suppressed → es.length < 2 ^ 32) :
    (if mode.toNat = 1 then fromBuffer (htonl h) vd es.length (encW h vd mode es)
      else if mode.toNat = 2 then desuppress (htonl h) vd es.length 0 (encW h vd mode es)
      else .ok ([], encW h vd mode es)) = .ok (es.map (gMode mode), []) := by
  cases mode with
  | automatic => exact absurd rfl hm
  | dense =>
    rw [if_pos (by decide : Mode.dense.toNat = 1)]
    simp only [encW]
    rw [fromBuffer_eq h vd es hel]
    congr 2
    exact (List.map_id es).symm
  | null_suppressed =>
    rw [if_neg (by decide), if_pos (by decide : Mode.null_suppressed.toNat = 2)]
    simp only [encW]
    have := desuppress_encFrom (htonl h) (htonl h) vd (htonl_inv h) [] _ es rfl hel (noHugeRun_of_length (hn rfl))
    rw [List.append_nil] at this
    exact this

/-! ### the elements of a view -/

theorem readAll_eq {vd : Nat} {hd : Hdr} {buf : List Nat} (f : List Nat → List Nat) : ∀ (is : List (List Nat)),
    (∀ i ∈ is, ND.read vd hd buf i = .ok (f i)) → readAll vd hd buf is = .ok (is.map f)
  | [], _ => rfl
  | i :: is, h => by
      rw [readAll, h i (by simp)]
      simp only [Res.ok_bind]
      rw [readAll_eq f is (fun x hx => h x (by simp [hx]))]
      rfl

theorem length_elemLoop : ∀ (s : List Nat), (elemLoop (s.map fun _ => 0) s).length = prod s
  | [] => rfl
  | a :: s => by
      have h : ∀ l : List Nat, (l.flatMap fun i => (elemLoop (s.map fun _ => 0) s).map (i :: ·)).length
          = l.length * prod s := by
        intro l
        induction l with
        | nil => simp
        | cons x l ih =>
          rw [List.flatMap_cons, List.length_append, ih, List.length_map, length_elemLoop s, List.length_cons, Nat.succ_mul]
          omega
      show ((forRange 0 a).flatMap fun i => (elemLoop (s.map fun _ => 0) s).map (i :: ·)).length = _
      rw [h, forRange_eq, List.length_range', Nat.sub_zero, prod]

/-- The elements in iteration order of a window, given the element function. -/
def elemsOf (shape : List Nat) (f : List Nat → List Nat) : List (List Nat) := (arrayElemLoop shape).map f

theorem length_elemsOf (shape : List Nat) (f : List Nat → List Nat) : (elemsOf shape f).length = numElems shape := by
  rw [elemsOf, List.length_map, numElems_eq]
  exact length_elemLoop shape

theorem mem_arrayElemLoop {shape i : List Nat} : i ∈ arrayElemLoop shape ↔ ValidInd shape i := by
  rw [arrayElemLoop, mem_elemLoop, inBox_zero_iff]

theorem chunkWords_eq (h : Host) {vd : Nat} {P st : List Nat} {hv : Hdr} (w : IsWindow vd P st hv) (hsm : Small hv.shape)
    {buf : List Nat} (hb : buf.length = volume vd P) (hd : 0 < hv.shape.length) (mode : Mode) (hm : mode ≠ .automatic)
    (f : List Nat → List Nat) (hf : ∀ i, ValidInd hv.shape i → ND.read vd hv buf i = .ok (f i)) :
    chunkWords h vd mode hv buf = .ok (encW h vd mode (elemsOf hv.shape f)) := by
  have hfl : ∀ v ∈ elemsOf hv.shape f, v.length = vd := by
    intro v hx
    obtain ⟨i, hi, rfl⟩ := List.mem_map.1 hx
    have hi := mem_arrayElemLoop.1 hi
    have h1 := hf i hi
    rw [read_window w hb hi] at h1
    have := Res.ok.inj h1
    rw [← this, List.length_take, List.length_drop]
    have := blk_le (vd := vd) (w.valid hi)
    omega
  cases mode with
  | automatic => exact absurd rfl hm
  | dense =>
    have hle : loopElems vd hv buf = .ok (elemsOf hv.shape f) := by
      rw [loopElems_eq w hsm hb hd]
      congr 1
      apply List.map_congr_left
      intro i hi
      have hi : ValidInd hv.shape i := mem_arrayElemLoop.1 hi
      have h1 := hf i hi
      rw [read_window w hb hi] at h1
      exact Res.ok.inj h1
    simp only [chunkWords, encW]
    rw [hle]
    simp only [Res.ok_bind]
    rw [toBuffer_eq _ _ _ _ (by
      rw [List.length_nil, length_dense h vd _ hfl, length_elemsOf, Nat.zero_add]; exact Nat.le_refl _)]
    simp
  | null_suppressed =>
    simp only [chunkWords, encW]
    rw [readAll_eq f _ (fun i hi => hf i (mem_arrayElemLoop.1 hi))]
    simp only [Res.ok_bind]
    have := (suppress_ok h vd (elemsOf hv.shape f) hfl).1
    rw [length_elemsOf] at this
    exact this

/-! ### storing elements -/

theorem addVec_inj : ∀ {a b c : List Nat}, b.length = a.length → c.length = a.length → addVec a b = addVec a c → b = c
  | [], [], [], _, _, _ => rfl
  | a :: as, b :: bs, c :: cs, h1, h2, h => by
      simp only [addVec, List.zipWith_cons_cons, List.cons.injEq] at h
      rw [addVec_inj (a := as) (by simpa using h1) (by simpa using h2) h.2]
      congr 1; omega

theorem runWritesV {vd : Nat} {P st : List Nat} {h : Hdr} (hP : Small P) (hv : ViewOf vd P st h) :
    ∀ (L : List (List Nat × List Nat)) (buf : List Nat),
    buf.length = volume vd P → (∀ x ∈ L, ValidInd h.shape x.1 ∧ x.2.length = vd) → (L.map Prod.fst).Nodup →
    ∃ buf', runLoop (fun x d => write vd h d x.1 x.2) L buf = .ok buf' ∧ buf'.length = buf.length ∧
      (∀ x ∈ L, ND.read vd (mkHdr vd P) buf' (addVec st x.1) = .ok x.2) ∧
      (∀ j, ValidInd P j → (∀ x ∈ L, j ≠ addVec st x.1) → ND.read vd (mkHdr vd P) buf' j = ND.read vd (mkHdr vd P) buf j)
  | [], buf, _, _, _ => ⟨buf, rfl, rfl, by simp, fun _ _ _ => rfl⟩
  | x :: xs, buf, hb, hL, hn => by
      have w := hv.window hP
      have hx := hL x (by simp)
      obtain ⟨b1, w1, w2, w3, w4⟩ := C03_write_read vd P st h hP hv buf hb x.1 hx.1 x.2 hx.2
      rw [List.map_cons, List.nodup_cons] at hn
      obtain ⟨b2, r1, r2, r3, r4⟩ := runWritesV hP hv xs b1 (by omega) (fun y hy => hL y (by simp [hy])) hn.2
      refine ⟨b2, ?_, by omega, ?_, ?_⟩
      · simp only [runLoop, w1, Res.ok_bind, r1]
      · intro y hy
        rcases List.mem_cons.1 hy with rfl | hy
        · rw [r4 _ (w.valid hx.1)]
          · rw [← (C04_view_is_window vd P st h hP hv b1 (by omega) y.1 hx.1).2.1, w3]
          · intro z hz heq
            have hz1 := (hL z (by simp [hz])).1
            have := addVec_inj (by rw [w.lenSt, hx.1.1, w.lenShape]) (by rw [w.lenSt, hz1.1, w.lenShape]) heq
            exact hn.1 (this ▸ List.mem_map_of_mem hz)
        · exact r3 y hy
      · intro j hj hjn
        rw [r4 j hj (fun y hy => hjn y (by simp [hy])), w4 j hj (hjn x (by simp))]

theorem zip_map_right {α β : Type} (f : α → β) : ∀ l : List α, l.zip (l.map f) = l.map fun a => (a, f a)
  | [] => rfl
  | a :: l => by simp [zip_map_right f l]

theorem storeElems_spec {vd : Nat} {P st : List Nat} {h : Hdr} (hP : Small P) (hv : ViewOf vd P st h)
    (buf : List Nat) (hb : buf.length = volume vd P) (f : List Nat → List Nat)
    (hf : ∀ i, ValidInd h.shape i → (f i).length = vd) :
    ∃ buf', storeElems vd h buf (elemsOf h.shape f) = .ok buf' ∧ buf'.length = buf.length ∧
      (∀ i, ValidInd h.shape i → ND.read vd (mkHdr vd P) buf' (addVec st i) = .ok (f i)) ∧
      (∀ j, ValidInd P j → (∀ i, ValidInd h.shape i → j ≠ addVec st i) →
        ND.read vd (mkHdr vd P) buf' j = ND.read vd (mkHdr vd P) buf j) := by
  have hz := zip_map_right f (arrayElemLoop h.shape)
  obtain ⟨b, h1, h2, h3, h4⟩ := runWritesV hP hv ((arrayElemLoop h.shape).map fun a => (a, f a)) buf hb
    (by
      intro x hx
      obtain ⟨i, hi, rfl⟩ := List.mem_map.1 hx
      have := mem_arrayElemLoop.1 hi
      exact ⟨this, hf i this⟩)
    (by
      rw [List.map_map]
      show (List.map id _).Nodup
      rw [List.map_id]
      exact elemLoop_nodup _ _)
  refine ⟨b, by rw [storeElems, elemsOf, hz, h1], h2, ?_, ?_⟩
  · intro i hi
    exact h3 (i, f i) (List.mem_map.2 ⟨i, mem_arrayElemLoop.2 hi, rfl⟩)
  · intro j hj hjn
    apply h4 j hj
    intro x hx
    obtain ⟨i, hi, rfl⟩ := List.mem_map.1 hx
    exact hjn i (mem_arrayElemLoop.1 hi)

/-! ### reading one chunk, reading all chunks -/

/-- Record of the box `p` of an array with element function `f`. -/
def boxRecord (h : Host) (vd : Nat) (f : List Nat → List Nat) (x : (List Nat × List Nat) × Mode) : List Nat :=
  chunkRecord h x.2 (encW h vd x.2 (elemsOf (subVec x.1.2 x.1.1) fun k => f (addVec x.1.1 k)))

/-- The conditions under which a box record reads back. -/
structure BoxGood (vd : Nat) (Q : List Nat) (f : List Nat → List Nat) (x : (List Nat × List Nat) × Mode) : Prop where
  mode : x.2 ≠ .automatic
  le : LeVec x.1.1 x.1.2
  leQ : LeVec x.1.2 Q
  size : numElems (subVec x.1.2 x.1.1) * vd + (numElems (subVec x.1.2 x.1.1) + 1) / 2 < 2 ^ 64
  small : x.2 = .null_suppressed → numElems (subVec x.1.2 x.1.1) < 2 ^ 32
  elems : ∀ i, InBox x.1.1 x.1.2 i → (f i).length = vd ∧ ∀ w ∈ f i, w < 2 ^ 32

theorem zero_addVec {P i : List Nat} (h : i.length = P.length) : addVec (P.map fun _ => 0) i = i := addVec_zero P i h

theorem readChunk_spec (h : Host) {vd : Nat} {Q : List Nat} (hQ : Small Q) {f : List Nat → List Nat}
    {x : (List Nat × List Nat) × Mode} (hg : BoxGood vd Q f x) (rest buf : List Nat) (hb : buf.length = volume vd Q) :
    ∃ buf', readChunk h vd (mkHdr vd Q) x.1 (boxRecord h vd f x ++ rest, buf) = .ok (rest, buf') ∧
      buf'.length = buf.length ∧
      (∀ i, InBox x.1.1 x.1.2 i → ND.read vd (mkHdr vd Q) buf' i = .ok (gMode x.2 (f i))) ∧
      (∀ j, ValidInd Q j → ¬ InBox x.1.1 x.1.2 j → ND.read vd (mkHdr vd Q) buf' j = ND.read vd (mkHdr vd Q) buf j) := by
  obtain ⟨⟨lo, hi⟩, mode⟩ := x
  have hle := hg.le
  have hleQ := hg.leQ
  simp only at hle hleQ
  have hshape : (view (mkHdr vd Q) lo hi).shape = subVec hi lo :=
    (C04_view_step (S := Nat) vd Q _ (mkHdr vd Q) hQ ViewOf.own lo hi hle hleQ).1
  have hvo : ViewOf vd Q (addVec (Q.map fun _ => 0) lo) (view (mkHdr vd Q) lo hi) := ViewOf.step ViewOf.own hle hleQ
  have hlo : lo.length = Q.length := by rw [hle.1, hleQ.1]
  rw [zero_addVec hlo] at hvo
  have hbox : ∀ k, ValidInd (subVec hi lo) k → InBox lo hi (addVec lo k) := fun k hk => inBox_ext hle.1 hk
  have hel : Elems vd (elemsOf (subVec hi lo) fun k => f (addVec lo k)) := by
    intro v hv
    obtain ⟨k, hk, rfl⟩ := List.mem_map.1 hv
    exact hg.elems _ (hbox k (mem_arrayElemLoop.1 hk))
  have hsz := hg.size
  have hlenE := length_elemsOf (subVec hi lo) fun k => f (addVec lo k)
  have hlenW := length_encW h vd mode _ (fun v hv => (hel v hv).1)
  rw [hlenE] at hlenW
  have hwlt := encW_lt h vd mode _ hel
  have hdec := decode_encW h vd mode hg.mode _ hel (fun hm => by rw [hlenE]; exact hg.small hm)
  rw [hlenE] at hdec
  obtain ⟨b, s1, s2, s3, s4⟩ := storeElems_spec hQ hvo buf hb (fun k => gMode mode (f (addVec lo k))) (by
    intro k hk
    rw [hshape] at hk
    have hl := (hg.elems _ (hbox k hk)).1
    cases mode
    · exact hl
    · exact hl
    · simp only [gMode, canonV]; split
      · rw [List.length_map]; exact hl
      · exact hl)
  refine ⟨b, ?_, s2, ?_, ?_⟩
  · simp only [readChunk, boxRecord, chunkRecord]
    rw [List.append_assoc, cMeta_rt h _ _ (by cases mode <;> decide) (by simp only at hsz; omega)]
    simp only [Res.ok_bind]
    rw [takeBytes_append _ _ (by
      rw [length_flatMap_const _ 4 (fun v => length_mem h 4 v)]; omega)]
    simp only [Res.ok_bind]
    rw [words_mem h _ hwlt, hshape, hdec]
    simp only [Res.ok_bind]
    have hmap : (elemsOf (subVec hi lo) fun k => f (addVec lo k)).map (gMode mode)
        = elemsOf (view (mkHdr vd Q) lo hi).shape (fun k => gMode mode (f (addVec lo k))) := by
      rw [hshape, elemsOf, elemsOf, List.map_map]; rfl
    rw [hmap, s1]
    rfl
  · intro i hi'
    simp only at hi'
    obtain ⟨hv, he⟩ := valid_of_inBox hi'
    have := s3 (subVec i lo) (by rw [hshape]; exact hv)
    rw [← he] at this
    exact this
  · intro j hj hnj
    apply s4 j hj
    intro k hk heq
    rw [hshape] at hk
    exact hnj (heq ▸ hbox k hk)

theorem readChunks_spec (h : Host) {vd : Nat} {Q : List Nat} (hQ : Small Q) {f : List Nat → List Nat} (rest : List Nat) :
    ∀ (bs : List ((List Nat × List Nat) × Mode)) (buf : List Nat), buf.length = volume vd Q →
      (∀ x ∈ bs, BoxGood vd Q f x) → bs.Pairwise (fun x y => DisjointBox x.1.1 x.1.2 y.1.1 y.1.2) →
      ∃ buf', runLoop (readChunk h vd (mkHdr vd Q)) (bs.map Prod.fst) (bs.flatMap (boxRecord h vd f) ++ rest, buf)
          = .ok (rest, buf') ∧ buf'.length = buf.length ∧
        (∀ x ∈ bs, ∀ i, InBox x.1.1 x.1.2 i → ND.read vd (mkHdr vd Q) buf' i = .ok (gMode x.2 (f i))) ∧
        (∀ j, ValidInd Q j → (∀ x ∈ bs, ¬ InBox x.1.1 x.1.2 j) →
          ND.read vd (mkHdr vd Q) buf' j = ND.read vd (mkHdr vd Q) buf j)
  | [], buf, _, _, _ => ⟨buf, rfl, rfl, by simp, fun _ _ _ => rfl⟩
  | x :: bs, buf, hb, hg, hd => by
      rw [List.pairwise_cons] at hd
      obtain ⟨b1, r1, r2, r3, r4⟩ := readChunk_spec h hQ (hg x (by simp)) (bs.flatMap (boxRecord h vd f) ++ rest) buf hb
      obtain ⟨b2, q1, q2, q3, q4⟩ := readChunks_spec h hQ rest bs b1 (by omega) (fun y hy => hg y (by simp [hy])) hd.2
      refine ⟨b2, ?_, by omega, ?_, ?_⟩
      · rw [List.map_cons, runLoop, List.flatMap_cons, List.append_assoc, r1]
        simp only [Res.ok_bind]
        exact q1
      · intro y hy i hi
        rcases List.mem_cons.1 hy with rfl | hy
        · have hgx := hg y (by simp)
          have hvi : ValidInd Q i := by
            refine ⟨by rw [hi.2.1, hgx.leQ.1], fun d hd' => ?_⟩
            have a1 := hi.2.2 d (by rw [hi.2.1, hgx.leQ.1]; exact hd')
            have a2 := hgx.leQ.2 d (by rw [hgx.leQ.1]; exact hd')
            omega
          rw [q4 i hvi (fun z hz hzi => hd.1 z hz i ⟨hi, hzi⟩), r3 i hi]
        · exact q3 y hy i hi
      · intro j hj hnj
        rw [q4 j hj (fun z hz => hnj z (by simp [hz])), r4 j hj (hnj x (by simp))]

end Verif.Stream
