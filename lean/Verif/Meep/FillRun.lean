import Verif.Meep.FillProof
import Verif.Meep.RechunkEnd
/-
Proof for C61: the callbacks, all together, do what the model of the saving in Save.lean does with the right buffers.
-/
set_option linter.unusedSectionVars false
namespace Verif.Meep
open Verif Verif.ND Verif.Dist Verif.Tree Verif.Ops

variable {K : Type} [Field K] [LinearOrder K] [IsStrictOrderedRing K]

/-! ### The contents of the buffers -/

/-- The largest magnitude in the block of `k` up to step `n`, in the array of shape `sh` whose first element is at the index `s`. -/
def peakAt (X : Phys K) (n : Nat) (s sh k : List Nat) : K :=
  ((List.range (n + 1)).flatMap fun n' => ((elemLoop (sh.map fun _ => 0) sh).filter fun j => decide (k.map (· / 2) = j.map (· / 2))).map fun j => X.mag n' (addVec s j)).foldr max 0

theorem foldr_max_ge : ∀ {l : List K} {x : K}, x ∈ l → x ≤ l.foldr max 0
  | y :: l, x, h => by
      rcases List.mem_cons.1 h with rfl | h
      · exact le_max_left _ _
      · exact le_trans (foldr_max_ge h) (le_max_right _ _)

theorem foldr_max_nonneg : ∀ l : List K, 0 ≤ l.foldr max 0
  | [] => le_refl _
  | y :: l => le_trans (foldr_max_nonneg l) (le_max_right _ _)

theorem foldr_max_att : ∀ l : List K, l.foldr max 0 = 0 ∨ l.foldr max 0 ∈ l
  | [] => Or.inl rfl
  | y :: l => by
      rw [List.foldr_cons]
      rcases le_total y (l.foldr max 0) with h | h
      · rw [max_eq_right h]
        rcases foldr_max_att l with h1 | h1
        · exact Or.inl h1
        · exact Or.inr (List.mem_cons_of_mem _ h1)
      · rw [max_eq_left h]; exact Or.inr List.mem_cons_self

theorem mem_peak {X : Phys K} {n : Nat} {s sh k : List Nat} {x : K} :
    x ∈ ((List.range (n + 1)).flatMap fun n' => ((elemLoop (sh.map fun _ => 0) sh).filter fun j => decide (k.map (· / 2) = j.map (· / 2))).map fun j => X.mag n' (addVec s j)) ↔
      ∃ n' ≤ n, ∃ j, ValidInd sh j ∧ SameCell 2 k j ∧ X.mag n' (addVec s j) = x := by
  simp only [List.mem_flatMap, List.mem_range, List.mem_map, List.mem_filter, decide_eq_true_eq, mem_elemLoop, inBox_zero_iff, sameCell_iff]
  constructor
  · rintro ⟨n', h1, j, ⟨h2, h3⟩, h4⟩
    exact ⟨n', by omega, j, h2, h3, h4⟩
  · rintro ⟨n', h1, j, h2, h3, h4⟩
    exact ⟨n', by omega, j, ⟨h2, h3⟩, h4⟩

open Classical in
/-- The sample with local index `k` after the limit on the dynamic range. -/
noncomputable def truncAt (X : Phys K) (n : Nat) (s sh k : List Nat) : List K :=
  if Survives (peakAt X n s sh k) (X.mag n (addVec s k)) X.absMin X.dr then X.vec n (addVec s k) else [0, 0]

theorem length_truncAt (X : Phys K) (n : Nat) (s sh k : List Nat) : (truncAt X n s sh k).length = 2 := by
  unfold truncAt
  split
  · rfl
  · rfl

open Classical in
/-- The buffer of the magnitudes, and the words of the field buffer. -/
noncomputable def absBuf (X : Phys K) (n : Nat) (s sh : List Nat) : List K :=
  if h : Small sh then Classical.choose (exists_buf 1 h (0 : K) (fun k => [X.mag n (addVec s k)]) fun _ => rfl) else []

open Classical in
noncomputable def fldBuf (X : Phys K) (n : Nat) (s sh : List Nat) : List Nat :=
  if h : Small (1 :: sh) then Classical.choose (exists_buf 2 h (0 : Nat) (fun k => (truncAt X n s sh (k.drop 1)).map X.enc) fun k => by rw [List.length_map, length_truncAt]) else []

theorem absBuf_spec (X : Phys K) (n : Nat) (s : List Nat) {sh : List Nat} (h : Small sh) : (absBuf X n s sh).length = volume 1 sh ∧
    ∀ k, ValidInd sh k → read 1 (mkHdr 1 sh) (absBuf X n s sh) k = .ok [X.mag n (addVec s k)] := by
  unfold absBuf
  rw [dif_pos h]
  exact Classical.choose_spec (exists_buf 1 h (0 : K) (fun k => [X.mag n (addVec s k)]) fun _ => rfl)

theorem fldBuf_spec (X : Phys K) (n : Nat) (s : List Nat) {sh : List Nat} (h : Small (1 :: sh)) : (fldBuf X n s sh).length = volume 2 (1 :: sh) ∧
    ∀ k, ValidInd sh k → read 2 (mkHdr 2 (1 :: sh)) (fldBuf X n s sh) (0 :: k) = .ok ((truncAt X n s sh k).map X.enc) := by
  unfold fldBuf
  rw [dif_pos h]
  have := Classical.choose_spec (exists_buf 2 h (0 : Nat) (fun k => (truncAt X n s sh (k.drop 1)).map X.enc) fun k => by rw [List.length_map, length_truncAt])
  exact ⟨this.1, fun k hk => this.2 (0 :: k) (validInd_cons.2 ⟨by omega, hk⟩)⟩

/-! ### The statistics tracker -/

/-- What holds between callbacks: `cnt key` updates were made for the region `key`. -/
structure TrackOk (X : Phys K) (M : Nat → Option ChunkMeta) (cnt : Nat → Nat) (ops : List (Op Nat K)) : Prop where
  legal : Legal 2 ops
  reg : ∀ key m, M key = some m → Added ops key m.shape ∧ ∀ s v, Op.update key s v ∈ ops ↔ s = m.shape ∧ ∃ n' < cnt key, v = absBuf X n' m.start m.shape

theorem legal_nil {m : Nat} : Legal m ([] : List (Op Nat K)) := ⟨fun _ _ h => absurd h (by simp), fun p q k s v e => by
  have := congrArg List.length e
  simp at this⟩

theorem legal_update {m : Nat} {ops : List (Op Nat K)} (h : Legal m ops) {key : Nat} {s : List Nat} {v : List K} (ha : Added ops key s) (hv : v.length = volume 1 s) :
    Legal m (ops ++ [.update key s v]) := by
  constructor
  · intro k s' hm
    have : Op.add k s' ∈ ops := by simpa using hm
    exact h.fits k s' this
  · intro pre post k s' v' e
    rcases List.append_eq_append_iff.1 e with ⟨t, e1, e2⟩ | ⟨t, e1, e2⟩
    · cases t with
      | nil =>
        simp at e2
        obtain ⟨⟨rfl, rfl, rfl⟩, rfl⟩ := e2
        rw [List.append_nil] at e1
        rw [e1]
        exact ⟨ha, hv⟩
      | cons a t =>
        simp at e2
    · cases t with
      | nil =>
        simp at e2
        obtain ⟨⟨rfl, rfl, rfl⟩, rfl⟩ := e2
        rw [List.append_nil] at e1
        rw [← e1]
        exact ⟨ha, hv⟩
      | cons a t =>
        simp at e2
        obtain ⟨rfl, rfl⟩ := e2
        exact h.order pre t k s' v' e1

theorem legal_add {m : Nat} {ops : List (Op Nat K)} (h : Legal m ops) {key : Nat} {s : List Nat} (hs : ∀ x ∈ s, x + m < 2 ^ 64) : Legal m (ops ++ [.add key s]) := by
  constructor
  · intro k s' hm
    rcases List.mem_append.1 hm with hm | hm
    · exact h.fits k s' hm
    · simp at hm
      obtain ⟨rfl, rfl⟩ := hm
      exact hs
  · intro pre post k s' v' e
    rcases List.append_eq_append_iff.1 e with ⟨t, e1, e2⟩ | ⟨t, e1, e2⟩
    · cases t with
      | nil => simp at e2
      | cons a t => simp at e2
    · cases t with
      | nil => simp at e2
      | cons a t =>
        simp at e2
        obtain ⟨rfl, rfl⟩ := e2
        exact h.order pre t k s' v' e1

theorem range_fits {n : Nat} {s sh : List Nat} (h : Range n s sh) : ∀ x ∈ sh, x + 2 < 2 ^ 64 := by
  intro x hx
  obtain ⟨d, hd, rfl⟩ := List.getElem_of_mem hx
  have := h.lt d (by rw [← h.len']; exact hd)
  rw [List.getD_eq_getElem?_getD (l := sh), List.getElem?_eq_getElem hd] at this
  simp only [Option.getD_some] at this
  omega

/-- The running maximum is the peak. -/
theorem runningMax_peak {X : Phys K} {M : Nat → Option ChunkMeta} {cnt : Nat → Nat} {ops : List (Op Nat K)} (h : TrackOk X M cnt ops) {key n : Nat} {m : ChunkMeta} (hm : M key = some m)
    (hs : Small m.shape) (hc : cnt key = n + 1) {k : List Nat} {x : K} (hx : IsRunningMax 2 ops key k x) : x = peakAt X n m.start m.shape k := by
  have hseen : ∀ y, Seen 2 ops key k y ↔ ∃ n' ≤ n, ∃ j, ValidInd m.shape j ∧ SameCell 2 k j ∧ X.mag n' (addVec m.start j) = y := by
    intro y
    constructor
    · rintro ⟨s, v, j, h1, h2, h3, h4⟩
      obtain ⟨rfl, n', h5, rfl⟩ := (((h.reg key m hm).2 s v).1 h1)
      rw [(absBuf_spec X n' m.start hs).2 j h2] at h4
      injection h4 with h4
      exact ⟨n', by omega, j, h2, h3, by simpa using h4⟩
    · rintro ⟨n', h1, j, h2, h3, rfl⟩
      exact ⟨m.shape, absBuf X n' m.start m.shape, j, ((h.reg key m hm).2 _ _).2 ⟨rfl, n', by omega, rfl⟩, h2, h3, (absBuf_spec X n' m.start hs).2 j h2⟩
  apply le_antisymm
  · rcases hx.attained with h0 | h0
    · rw [h0]; exact foldr_max_nonneg _
    · exact foldr_max_ge (mem_peak.2 ((hseen x).1 h0))
  · have h9 := foldr_max_att ((List.range (n + 1)).flatMap fun n' => ((elemLoop (m.shape.map fun _ => 0) m.shape).filter fun (j : List Nat) => decide (k.map (· / 2) = j.map (· / 2))).map
      fun j => X.mag n' (addVec m.start j))
    unfold peakAt
    rcases h9 with h0 | h0
    · rw [h0]; exact hx.nonneg
    · exact hx.upper _ ((hseen _).2 (mem_peak.1 h0))

/-! ### One callback -/

/-- The state between callbacks. -/
structure FillInv (X : Phys K) (M : Nat → Option ChunkMeta) (cnt : Nat → Nat) (q : FillState K) : Prop where
  metas : q.metas = M
  own : (∃ s, q.fldb.1 = mkHdr 2 s) ∧ ∃ s, q.absb.1 = mkHdr 1 s
  track : ∃ ops, TrackOk X M cnt ops ∧ TInv 2 ops q.tr

/-- The limit on the dynamic range, for a tracker that satisfies the invariant. -/
theorem limit_ok {m : Nat} (hm : 0 < m) {ops : List (Op Nat K)} (hl : Legal m ops) {t : Tracker Nat K} (hi : TInv m ops t) {key : Nat} {s : List Nat} (ha : Added ops key s)
    (fld absval : List K) (hf : fld.length = volume 2 (1 :: s)) (hab : absval.length = volume 1 s) (absMin dr : K) :
    ∃ out, limitRange 2 t key (mkHdr 2 (1 :: s)) fld (mkHdr 1 s) absval absMin dr = .ok out ∧ out.length = fld.length ∧
      ∀ i, ValidInd s i → ∃ M a, IsRunningMax m ops key i M ∧ read 1 (mkHdr 1 s) absval i = .ok [a] ∧
        (Survives M a absMin dr → read 2 (mkHdr 2 (1 :: s)) out (0 :: i) = read 2 (mkHdr 2 (1 :: s)) fld (0 :: i)) ∧
        (¬ Survives M a absMin dr → read 2 (mkHdr 2 (1 :: s)) out (0 :: i) = .ok (List.replicate 2 0)) := by
  obtain ⟨out, o1, o2, o3⟩ := limit_core hm hl hi ha 2 1 (by decide) fld absval hf hab absMin dr
  exact ⟨out, o1, o2, fun i hv => o3 0 i (by decide) hv⟩

variable {X : Phys K} {C : Cfg} {S : Sorter} {T L : Nat} {ds dom : List Nat} {uuid : Nat → Nat → Nat → List Nat} {M : Nat → Option ChunkMeta}

theorem saveCb_ok {cnt : Nat → Nat} {q : FillState K} (h : FillInv X M cnt q) {n dims : Nat} (hn : n < 2 ^ 62) {c : MeepChunk} {m : ChunkMeta} (hm : M c.key = some m) (hr : Range dims m.start m.shape)
    (hcs : chunkStartInd c.lo = .ok m.chunkStart) (hpts : ∀ x ∈ c.pts, ∃ i, x = node i ∧ i.length = dims ∧ ∀ y ∈ i, y < 2 ^ 62)
    (hcov : ∀ i, InBox m.start (addVec m.start m.shape) i → node i ∈ c.pts) (hcnt : cnt c.key = n) {sv : SaveState}
    (hsv : saveChunk C S T L ds n (uuid n m.rank) ⟨vsub m.start dom, m.shape⟩ (fldBuf X n m.start m.shape) q.sv = .ok sv) :
    ∃ q', saveCb X C S T L ds dom uuid n c q = .ok q' ∧ q'.sv = sv ∧ FillInv X M (fun k => if k = c.key then n + 1 else cnt k) q' := by
  obtain ⟨hM, ⟨⟨sf, hf⟩, sa, ha⟩, ops, htr, hti⟩ := h
  obtain ⟨sm1, sm2⟩ := range_small hr
  -- the buffers after the loop
  obtain ⟨b, b1, b2, b3, b4⟩ := fillLoop X hn hr c.pts
    ((List.range (volume 2 (1 :: m.shape))).map (fun k => q.fldb.2.getD k (X.junk k)), (List.range (volume 1 m.shape)).map fun k => q.absb.2.getD k (X.junk k)) (by simp) (by simp) hpts
  have hl1 : b.1.length = volume 2 (1 :: m.shape) := by rw [b2]; simp
  have hl2 : b.2.length = volume 1 m.shape := by rw [b3]; simp
  have hread : ∀ k, ValidInd m.shape k → read 2 (mkHdr 2 (1 :: m.shape)) b.1 (0 :: k) = .ok (X.vec n (addVec m.start k)) ∧
      read 1 (mkHdr 1 m.shape) b.2 k = .ok [X.mag n (addVec m.start k)] := by
    intro k hk
    have hkl : k.length = dims := by rw [hk.1, hr.len']
    refine (b4 k hk).1 (hcov _ ?_)
    rw [inBox_range hr]
    refine ⟨by rw [addVec_length (by rw [hkl, hr.len])]; exact hr.len, fun d hd => ?_⟩
    rw [getD_addVec (by rw [hkl, hr.len])]
    have := hk.2 d (by rw [hr.len']; exact hd)
    omega
  have habs : b.2 = absBuf X n m.start m.shape := buf_ext (by decide) hl2 (absBuf_spec X n m.start sm1).1 fun k hk => by
    rw [(hread k hk).2, (absBuf_spec X n m.start sm1).2 k hk]
  -- the tracker
  obtain ⟨hadd, hupd⟩ := htr.reg c.key m hm
  have hleg := legal_update htr.legal hadd hl2
  obtain ⟨t, t1, t2⟩ := step_ok (by decide) hleg hti
  have htr' : TrackOk X M (fun k => if k = c.key then n + 1 else cnt k) (ops ++ [.update c.key m.shape b.2]) := by
    refine ⟨hleg, fun key m' hk => ⟨(htr.reg key m' hk).1.append _, fun s v => ?_⟩⟩
    rw [List.mem_append, (htr.reg key m' hk).2 s v, List.mem_singleton, Op.update.injEq]
    by_cases he : key = c.key
    · subst he
      rw [hm] at hk
      cases hk
      rw [if_pos rfl, hcnt, habs]
      constructor
      · rintro (⟨rfl, n', h1, rfl⟩ | ⟨_, rfl, rfl⟩)
        · exact ⟨rfl, n', by omega, rfl⟩
        · exact ⟨rfl, n, by omega, rfl⟩
      · rintro ⟨rfl, n', h1, rfl⟩
        by_cases h2 : n' = n
        · subst h2; exact Or.inr ⟨rfl, rfl, rfl⟩
        · exact Or.inl ⟨rfl, n', by omega, rfl⟩
    · rw [if_neg he]
      constructor
      · rintro (h | ⟨h, _⟩)
        · exact h
        · exact absurd h he
      · exact Or.inl
  -- the limit
  obtain ⟨out, o1, o2, o3⟩ := limit_ok (by decide) hleg t2 (hadd.append _) b.1 b.2 hl1 hl2 X.absMin X.dr
  have hout : out.map X.enc = fldBuf X n m.start m.shape := by
    apply buf_ext (by decide) (by rw [List.length_map, o2, hl1]) (fldBuf_spec X n m.start sm2).1
    intro i hi
    obtain ⟨k0, k, rfl, hk0, hk⟩ := validInd_cons_left.1 hi
    have : k0 = 0 := by omega
    subst this
    rw [(fldBuf_spec X n m.start sm2).2 k hk]
    obtain ⟨Mx, a, m1, m2, m3, m4⟩ := o3 k hk
    rw [(hread k hk).2] at m2
    injection m2 with m2
    have m2 : X.mag n (addVec m.start k) = a := by simpa using m2
    subst m2
    have hpk := runningMax_peak htr' (n := n) hm sm1 (by simp) m1
    subst hpk
    unfold truncAt
    by_cases hsu : Survives (peakAt X n m.start m.shape k) (X.mag n (addVec m.start k)) X.absMin X.dr
    · rw [if_pos hsu]
      exact read_mapG X.enc 2 _ _ _ ((m3 hsu).trans (hread k hk).1)
    · rw [if_neg hsu]
      exact read_mapG X.enc 2 _ _ _ (m4 hsu)
  refine ⟨{ q with tr := t, fldb := (mkHdr 2 (1 :: m.shape), out), absb := (mkHdr 1 m.shape, b.2), sv := sv }, ?_, rfl, hM, ⟨⟨_, rfl⟩, _, rfl⟩, _, htr', t2⟩
  unfold saveCb
  rw [hM, hm]
  simp only
  rw [ha, hf, resize_own, Res.ok_bind, resize_own, Res.ok_bind, hcs, Res.ok_bind]
  rw [show Res.assert (decide (m.chunkStart = m.chunkStart)) = .ok () by simp [Res.assert], Res.ok_bind]
  simp only
  have t1' : q.tr.update c.key (mkHdr 1 m.shape) b.2 = .ok t := t1
  rw [b1, Res.ok_bind, t1', Res.ok_bind, o1, Res.ok_bind, hout, hsv, Res.ok_bind]

/-! ### The setup -/

/-- The entries for the chunks, numbered from `r` on. -/
def Table (dom domShape : List Nat) (M : Nat → Option ChunkMeta) : List MeepChunk → Nat → Prop
  | [], _ => True
  | c :: cs, r => if overlaps c.box.start c.box.shape dom domShape then
      M c.key = some ⟨c.box.start, (chunkOverlap c.box.start c.box.shape dom domShape).1, (chunkOverlap c.box.start c.box.shape dom domShape).2, r⟩ ∧ Table dom domShape M cs (r + 1)
    else M c.key = none ∧ Table dom domShape M cs r

theorem Table.congr {dom domShape : List Nat} {M M' : Nat → Option ChunkMeta} : ∀ {cs : List MeepChunk} {r : Nat}, (∀ c ∈ cs, M c.key = M' c.key) → Table dom domShape M cs r → Table dom domShape M' cs r
  | [], _, _, _ => trivial
  | c :: cs, r, h, ht => by
      unfold Table at ht ⊢
      rw [← h c (by simp)]
      split
      · rename_i ho
        rw [if_pos ho] at ht
        exact ⟨ht.1, ht.2.congr fun x hx => h x (by simp [hx])⟩
      · rename_i ho
        rw [if_neg ho] at ht
        exact ⟨ht.1, ht.2.congr fun x hx => h x (by simp [hx])⟩

/-- What the program finds for a chunk. -/
structure ChunkFacts (dims : Nat) (c : MeepChunk) : Prop where
  start : chunkStartInd c.lo = .ok c.box.start
  shape : chunkShapeOf c.lo c.hi = c.box.shape
  range : Range dims c.box.start c.box.shape
  cov : ∀ i, InBox c.box.start (addVec c.box.start c.box.shape) i → node i ∈ c.pts
  pts : ∀ x ∈ c.pts, ∃ i, x = node i ∧ i.length = dims ∧ ∀ y ∈ i, y < 2 ^ 62

theorem setupAll_ok {dims : Nat} {dom domShape : List Nat} (hd : Range dims dom domShape) :
    ∀ (cs : List MeepChunk) (q : FillState K), (∀ c ∈ cs, ChunkFacts dims c) → (cs.map MeepChunk.key).Nodup → (∀ c ∈ cs, q.metas c.key = none) →
      FillInv X q.metas (fun _ => 0) q → (∃ ops, TrackOk X q.metas (fun _ => 0) ops ∧ TInv 2 ops q.tr ∧ ∀ c ∈ cs, ∀ s, Op.add c.key s ∉ ops ∧ ∀ v, Op.update c.key s v ∉ ops) →
      ∃ q', setupAll dom domShape cs q = .ok q' ∧ q'.sv = q.sv ∧ FillInv X q'.metas (fun _ => 0) q' ∧ Table dom domShape q'.metas cs q.count ∧
        ∀ k, (∀ c ∈ cs, k ≠ c.key) → q'.metas k = q.metas k
  | [], q, _, _, _, hi, _ => ⟨q, rfl, rfl, hi, trivial, fun _ _ => rfl⟩
  | c :: cs, q, hf, hnd, hno, hi, ⟨ops, o1, o2, o3⟩ => by
      have hc := hf c (by simp)
      rw [List.map_cons, List.nodup_cons] at hnd
      have hne : ∀ x ∈ cs, x.key ≠ c.key := fun x hx e => hnd.1 (List.mem_map.2 ⟨x, hx, e⟩)
      by_cases ho : overlaps c.box.start c.box.shape dom domShape = true
      · obtain ⟨hr, _⟩ := C54_overlap hc.range hd ho
        have hleg : Legal 2 (ops ++ [.add c.key (chunkOverlap c.box.start c.box.shape dom domShape).2]) := legal_add o1.legal (range_fits hr)
        obtain ⟨t, t1, t2⟩ := step_ok (by decide) hleg o2
        let m : ChunkMeta := ⟨c.box.start, (chunkOverlap c.box.start c.box.shape dom domShape).1, (chunkOverlap c.box.start c.box.shape dom domShape).2, q.count⟩
        let q1 : FillState K := { q with metas := fun k => if k = c.key then some m else q.metas k, count := q.count + 1, tr := t }
        have e1 : setupCb dom domShape c q = .ok q1 := by
          unfold setupCb
          rw [hc.start, Res.ok_bind, hc.shape, if_pos ho]
          have t1' : q.tr.add c.key (chunkOverlap c.box.start c.box.shape dom domShape).2 0 = .ok t := t1
          simp only
          rw [t1', Res.ok_bind, hno c (by simp)]
          rfl
        have htr : TrackOk X q1.metas (fun _ => 0) (ops ++ [.add c.key (chunkOverlap c.box.start c.box.shape dom domShape).2]) := by
          refine ⟨hleg, fun key m' hk => ?_⟩
          replace hk : (if key = c.key then some m else q.metas key) = some m' := hk
          by_cases he : key = c.key
          · rw [if_pos he] at hk
            cases hk
            subst he
            refine ⟨⟨ops, [], rfl, fun s => (o3 c (by simp) s).1⟩, fun s v => ⟨fun h => ?_, ?_⟩⟩
            · have : Op.update c.key s v ∈ ops := by simpa using h
              exact absurd this ((o3 c (by simp) s).2 v)
            · rintro ⟨_, n', h, _⟩
              omega
          · rw [if_neg he] at hk
            obtain ⟨g1, g2⟩ := o1.reg key m' hk
            refine ⟨g1.append _, fun s v => ?_⟩
            rw [← g2 s v]
            simp
        have hi1 : FillInv X q1.metas (fun _ => 0) q1 := ⟨rfl, hi.own, _, htr, t2⟩
        obtain ⟨q', f1, f2, f3, f4, f5⟩ := setupAll_ok hd cs q1 (fun x hx => hf x (by simp [hx])) hnd.2
          (fun x hx => by
            show (if x.key = c.key then some m else q.metas x.key) = none
            rw [if_neg (hne x hx)]
            exact hno x (by simp [hx])) hi1
          ⟨_, htr, t2, fun x hx s => ⟨fun h => by
            rcases List.mem_append.1 h with h | h
            · exact (o3 x (by simp [hx]) s).1 h
            · simp at h
              exact hne x hx h.1, fun v h => by
            rcases List.mem_append.1 h with h | h
            · exact (o3 x (by simp [hx]) s).2 v h
            · simp at h⟩⟩
        refine ⟨q', ?_, f2, f3, ?_, ?_⟩
        · unfold setupAll at f1 ⊢
          simp only [runLoop, e1, Res.ok_bind, f1]
        · unfold Table
          rw [if_pos ho]
          refine ⟨?_, f4⟩
          rw [f5 c.key fun x hx => (hne x hx).symm]
          show (if c.key = c.key then some m else _) = _
          rw [if_pos rfl]
        · intro k hk
          rw [f5 k fun x hx => hk x (by simp [hx])]
          show (if k = c.key then some m else q.metas k) = _
          rw [if_neg (hk c (by simp))]
      · have e1 : setupCb dom domShape c q = .ok q := by
          unfold setupCb
          rw [hc.start, Res.ok_bind, hc.shape, if_neg ho]
        obtain ⟨q', f1, f2, f3, f4, f5⟩ := setupAll_ok hd cs q (fun x hx => hf x (by simp [hx])) hnd.2 (fun x hx => hno x (by simp [hx])) hi
          ⟨ops, o1, o2, fun x hx => o3 x (by simp [hx])⟩
        refine ⟨q', ?_, f2, f3, ?_, ?_⟩
        · unfold setupAll at f1 ⊢
          simp only [runLoop, e1, Res.ok_bind, f1]
        · unfold Table
          rw [if_neg ho]
          refine ⟨?_, f4⟩
          rw [f5 c.key fun x hx => (hne x hx).symm]
          exact hno c (by simp)
        · intro k hk
          exact f5 k fun x hx => hk x (by simp [hx])

/-! ### One step, and all steps -/

theorem addVec_vsub_dom {dims : Nat} {dom domShape a sa : List Nat} (hd : Range dims dom domShape) (ha : Range dims a sa) (ho : overlaps a sa dom domShape = true) :
    addVec dom (vsub (chunkOverlap a sa dom domShape).1 dom) = (chunkOverlap a sa dom domShape).1 := by
  obtain ⟨l1, l2, hf⟩ := overlap_facts ha hd ho
  have hsub := vsub_eq' (a := (chunkOverlap a sa dom domShape).1) (b := dom) (by rw [l1, hd.len]) (fun d hdn => by
    have h1 := hf d (by omega)
    have h2 := ha.lt d (by omega)
    have h3 := hd.lt d (by omega)
    exact ⟨by omega, by omega⟩)
  rw [hsub]
  have hl : (subVec (chunkOverlap a sa dom domShape).1 dom).length = dims := by rw [length_subVec (by rw [l1, hd.len])]; exact l1
  apply ext_getD
  · rw [addVec_length (by rw [hl, hd.len]), hd.len, l1]
  · intro d hdn
    rw [addVec_length (by rw [hl, hd.len]), hd.len] at hdn
    rw [getD_addVec (by rw [hl, hd.len]), getD_subVec (by rw [l1, hd.len])]
    have := (hf d hdn).1
    omega

theorem chunks_ok {dims : Nat} {domShape : List Nat} (hd : Range dims dom domShape) {n : Nat} (hn : n < 2 ^ 62) (fld : Nat → Nat → List Nat) :
    ∀ (cs : List MeepChunk) (r : Nat) (cnt : Nat → Nat) (q : FillState K) (sv : SaveState), (∀ c ∈ cs, ChunkFacts dims c) → (cs.map MeepChunk.key).Nodup → Table dom domShape M cs r →
      FillInv X M cnt q → (∀ c ∈ cs, cnt c.key = n) →
      (∀ x ∈ ((cs.map MeepChunk.box).filterMap (setupChunk dom domShape)).zipIdx r, fld n x.2 = fldBuf X n (addVec dom x.1.start) x.1.shape) →
      runLoop (fun (c : SimChunk × Nat) x => saveChunk C S T L ds n (uuid n c.2) c.1 (fld n c.2) x) (((cs.map MeepChunk.box).filterMap (setupChunk dom domShape)).zipIdx r) q.sv = .ok sv →
      ∃ q' cnt', runLoop (saveCb X C S T L ds dom uuid n) cs q = .ok q' ∧ q'.sv = sv ∧ FillInv X M cnt' q' ∧ (∀ c ∈ cs, cnt' c.key = n + 1 ∨ M c.key = none) ∧ ∀ k, (∀ c ∈ cs, k ≠ c.key) → cnt' k = cnt k
  | [], r, cnt, q, sv, _, _, _, hi, _, _, hrun => by
      refine ⟨q, cnt, rfl, ?_, hi, by simp, fun _ _ => rfl⟩
      simp only [List.map_nil, List.filterMap_nil, List.zipIdx_nil, runLoop] at hrun
      injection hrun
  | c :: cs, r, cnt, q, sv, hf, hnd, ht, hi, hcnt, hfld, hrun => by
      have hc := hf c (by simp)
      rw [List.map_cons, List.nodup_cons] at hnd
      have hne : ∀ x ∈ cs, x.key ≠ c.key := fun x hx e => hnd.1 (List.mem_map.2 ⟨x, hx, e⟩)
      unfold Table at ht
      by_cases ho : overlaps c.box.start c.box.shape dom domShape = true
      · rw [if_pos ho] at ht
        obtain ⟨hm, ht⟩ := ht
        have hset : setupChunk dom domShape c.box = some ⟨vsub (chunkOverlap c.box.start c.box.shape dom domShape).1 dom, (chunkOverlap c.box.start c.box.shape dom domShape).2⟩ := by
          unfold setupChunk; rw [if_pos ho]
        rw [List.map_cons, List.filterMap_cons_some hset, List.zipIdx_cons] at hrun hfld
        simp only [runLoop] at hrun
        obtain ⟨sv1, h1, h2⟩ := Res.bind_eq_ok.1 hrun
        have hfl := hfld (⟨vsub (chunkOverlap c.box.start c.box.shape dom domShape).1 dom, (chunkOverlap c.box.start c.box.shape dom domShape).2⟩, r) (by simp)
        simp only at hfl
        rw [addVec_vsub_dom hd hc.range ho] at hfl
        obtain ⟨hrg, hin⟩ := C54_overlap hc.range hd ho
        rw [hfl] at h1
        obtain ⟨q1, e1, e2, e3⟩ := saveCb_ok (C := C) (S := S) (T := T) (L := L) (ds := ds) (dom := dom) (uuid := uuid) hi hn hm hrg hc.start hc.pts
          (fun i hii => hc.cov i ((hin i).1 hii).1) (hcnt c (by simp)) h1
        obtain ⟨q', cnt', f1, f2, f3, f4, f5⟩ := chunks_ok hd hn fld cs (r + 1) _ q1 sv (fun x hx => hf x (by simp [hx])) hnd.2 ht e3
          (fun x hx => by rw [if_neg (hne x hx)]; exact hcnt x (by simp [hx])) (fun x hx => hfld x (List.mem_cons_of_mem _ hx)) (by rw [e2]; exact h2)
        refine ⟨q', cnt', by simp only [runLoop, e1, Res.ok_bind, f1], f2, f3, fun x hx => ?_, fun k hk => ?_⟩
        · rcases List.mem_cons.1 hx with rfl | hx
          · left
            rw [f5 x.key fun y hy => (hne y hy).symm, if_pos rfl]
          · exact f4 x hx
        · rw [f5 k fun x hx => hk x (by simp [hx]), if_neg (hk c (by simp))]
      · rw [if_neg ho] at ht
        obtain ⟨hm, ht⟩ := ht
        have hset : setupChunk dom domShape c.box = none := by
          unfold setupChunk; rw [if_neg ho]
        rw [List.map_cons, List.filterMap_cons_none hset] at hrun hfld
        have e1 : saveCb X C S T L ds dom uuid n c q = .ok q := by
          unfold saveCb
          rw [hi.metas, hm]
        obtain ⟨q', cnt', f1, f2, f3, f4, f5⟩ := chunks_ok hd hn fld cs r cnt q sv (fun x hx => hf x (by simp [hx])) hnd.2 ht hi (fun x hx => hcnt x (by simp [hx])) hfld hrun
        refine ⟨q', cnt', by simp only [runLoop, e1, Res.ok_bind, f1], f2, f3, fun x hx => ?_, fun k hk => f5 k fun x hx => hk x (by simp [hx])⟩
        rcases List.mem_cons.1 hx with rfl | hx
        · exact Or.inr hm
        · exact f4 x hx

/-- The number of updates of a chunk that is not stored does not matter. -/
theorem FillInv.recount {cnt cnt' : Nat → Nat} {q : FillState K} (h : FillInv X M cnt q) (he : ∀ k, M k ≠ none → cnt k = cnt' k) : FillInv X M cnt' q := by
  obtain ⟨ops, h1, h2⟩ := h.track
  refine ⟨h.metas, h.own, ops, ⟨h1.legal, fun key m hm => ?_⟩, h2⟩
  rw [← he key (by rw [hm]; simp)]
  exact h1.reg key m hm

theorem steps_ok {dims : Nat} {domShape : List Nat} (hd : Range dims dom domShape) (fld : Nat → Nat → List Nat) {cs : List MeepChunk} (hf : ∀ c ∈ cs, ChunkFacts dims c)
    (hnd : (cs.map MeepChunk.key).Nodup) (ht : Table dom domShape M cs 0) :
    ∀ (N : Nat), N < 2 ^ 62 → (∀ n < N, ∀ x ∈ ((cs.map MeepChunk.box).filterMap (setupChunk dom domShape)).zipIdx, fld n x.2 = fldBuf X n (addVec dom x.1.start) x.1.shape) →
      ∀ (q : FillState K) (sv : SaveState), FillInv X M (fun _ => 0) q →
      simulate C S T L ds uuid ((cs.map MeepChunk.box).filterMap (setupChunk dom domShape)) fld N q.sv = .ok sv →
      ∃ q' cnt, fillSteps X C S T L ds dom uuid cs N q = .ok q' ∧ q'.sv = sv ∧ FillInv X M cnt q' ∧ ∀ c ∈ cs, cnt c.key = N
  | 0, _, _, q, sv, hi, hrun => by
      refine ⟨q, _, rfl, ?_, hi, fun _ _ => rfl⟩
      unfold simulate at hrun
      simp only [List.range_zero, runLoop] at hrun
      injection hrun
  | N + 1, hN, hfld, q, sv, hi, hrun => by
      unfold simulate at hrun
      rw [List.range_succ, runLoop_append] at hrun
      obtain ⟨sv1, h1, h2⟩ := Res.bind_eq_ok.1 hrun
      obtain ⟨q1, cnt, e1, e2, e3, e4⟩ := steps_ok hd fld hf hnd ht N (by omega) (fun n hn => hfld n (by omega)) q sv1 hi h1
      simp only [runLoop] at h2
      obtain ⟨sv2, h3, h4⟩ := Res.bind_eq_ok.1 h2
      cases h4
      obtain ⟨q2, cnt2, f1, f2, f3, f4, f5⟩ := chunks_ok (C := C) (S := S) (T := T) (L := L) (ds := ds) (uuid := uuid) hd (n := N) (by omega) fld cs 0 cnt q1 sv hf hnd ht e3 e4 (hfld N (by omega))
        (by rw [e2]; exact h3)
      refine ⟨q2, fun k => if (∃ c ∈ cs, c.key = k) then N + 1 else cnt2 k, ?_, f2, f3.recount fun k hk => ?_, fun c hc => ?_⟩
      · unfold fillSteps at e1 ⊢
        rw [List.range_succ, runLoop_append, e1, Res.ok_bind]
        simp only [runLoop, f1, Res.ok_bind]
      · split
        · rename_i h
          obtain ⟨c, hc, rfl⟩ := h
          rcases f4 c hc with h | h
          · exact h
          · exact absurd h hk
        · rfl
      · exact if_pos ⟨c, hc, rfl⟩

end Verif.Meep
