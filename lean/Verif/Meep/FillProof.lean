import Verif.Meep.Fill
/-
Proof for C61: what the callbacks put into the buffers.
-/
set_option linter.unusedSectionVars false
namespace Verif.Meep
open Verif Verif.ND Verif.Dist Verif.Tree Verif.Ops

variable {K : Type} [Field K] [LinearOrder K] [IsStrictOrderedRing K]

/-! ### Indices -/

theorem cellInd_eq {x : Int} (h1 : 1 ≤ x) (h2 : x < 2 ^ 63) : cellInd x = ((x - 1) / 2).toNat := by
  unfold cellInd
  rw [Int.tdiv_eq_ediv_of_nonneg (by omega), Int.emod_eq_of_lt (by omega) (by omega)]

theorem cellInd_node {k : Nat} (h : k < 2 ^ 62) : cellInd (2 * (k : Int) + 1) = k := by
  rw [cellInd_eq (by omega) (by omega)]
  omega

theorem node_inj {i j : List Nat} (h : node i = node j) : i = j := by
  unfold node at h
  refine List.map_injective_iff.2 (fun a b e => ?_) h
  omega

theorem map_node {i : List Nat} (h : ∀ x ∈ i, x < 2 ^ 62) : (node i).map cellInd = i := by
  unfold node
  rw [List.map_map]
  conv_rhs => rw [← List.map_id i]
  apply List.map_congr_left
  intro k hk
  exact cellInd_node (h k hk)

theorem getI_map {α : Type} {f : α → Int} {l : List α} {d : Nat} {z : α} (h : d < l.length) : (l.map f).getD d 0 = f (l.getD d z) := by
  simp [List.getD_eq_getElem?_getD, h]

theorem getN_map {f : Int → Nat} {l : List Int} {d : Nat} (h : d < l.length) : (l.map f).getD d 0 = f (l.getD d 0) := by
  simp [List.getD_eq_getElem?_getD, h]

theorem extI {a b : List Int} (hl : a.length = b.length) (h : ∀ d < a.length, a.getD d 0 = b.getD d 0) : a = b := by
  apply List.ext_getElem hl
  intro i h1 h2
  have := h i h1
  rwa [List.getD_eq_getElem?_getD, List.getD_eq_getElem?_getD, List.getElem?_eq_getElem h1, List.getElem?_eq_getElem h2] at this

/-- What is known about a chunk of the grid: the program finds its range of indices, and the points are those with these indices. -/
theorem chunk_facts {c : MeepChunk} {dims : Nat} {cal : List Nat} (h : c.Ok dims) (hc : ∀ d < dims, c.hi.getD d 0 < 2 * (cal.getD d 0 : Int)) (hcal : ∀ d < dims, cal.getD d 0 < 2 ^ 62) :
    chunkStartInd c.lo = .ok c.box.start ∧ chunkShapeOf c.lo c.hi = c.box.shape ∧ c.box.start.length = dims ∧ c.box.shape.length = dims ∧
    (∀ d < dims, 0 < c.box.shape.getD d 0 ∧ c.box.start.getD d 0 + c.box.shape.getD d 0 ≤ cal.getD d 0) ∧
    (∀ i, InBox c.box.start (addVec c.box.start c.box.shape) i ↔ node i ∈ c.pts) ∧
    (∀ x ∈ c.pts, ∃ i, x = node i ∧ i.length = dims ∧ ∀ d < dims, i.getD d 0 < cal.getD d 0) := by
  obtain ⟨l1, l2⟩ := h.len
  have gs : ∀ d < dims, c.box.start.getD d 0 = ((c.lo.getD d 0 - 1) / 2).toNat := fun d hd => getN_map (f := fun x => ((x - 1) / 2).toNat) (by omega)
  have gh : ∀ d < dims, c.box.shape.getD d 0 = ((c.hi.getD d 0 - c.lo.getD d 0) / 2 + 1).toNat := by
    intro d hd
    show (List.zipWith _ c.lo c.hi).getD d 0 = _
    simp [List.getD_eq_getElem?_getD, show d < c.lo.length by omega, show d < c.hi.length by omega]
  have ls : c.box.start.length = dims := by show (List.map _ _).length = _; simpa using l1
  have lh : c.box.shape.length = dims := by show (List.zipWith _ _ _).length = _; rw [List.length_zipWith]; omega
  have hmem : ∀ x ∈ c.lo, 1 ≤ x ∧ x < 2 ^ 63 := by
    intro x hx
    obtain ⟨d, hd, rfl⟩ := List.getElem_of_mem hx
    have h1 := h.odd d (by omega)
    have h2 := hc d (by omega)
    have h3 := hcal d (by omega)
    rw [List.getD_eq_getElem?_getD, List.getElem?_eq_getElem hd] at h1
    simp only [Option.getD_some] at h1
    omega
  refine ⟨?_, ?_, ls, lh, fun d hd => ?_, fun i => ?_, fun x hx => ?_⟩
  · unfold chunkStartInd
    have : (c.lo.all fun x => decide (0 ≤ x)) = true := by
      rw [List.all_eq_true]
      intro x hx
      have := hmem x hx
      exact decide_eq_true (by omega)
    rw [this]
    show Res.ok _ = Res.ok _
    congr 1
    apply List.map_congr_left
    intro x hx
    exact cellInd_eq (hmem x hx).1 (hmem x hx).2
  · apply ext_getD
    · rw [lh]; show (List.zipWith _ _ _).length = _; rw [List.length_zipWith]; omega
    · intro d hd
      have hd' : d < dims := by
        have : (chunkShapeOf c.lo c.hi).length = dims := by show (List.zipWith _ _ _).length = _; rw [List.length_zipWith]; omega
        omega
      rw [gh d hd']
      have h1 := h.odd d hd'
      have : (chunkShapeOf c.lo c.hi).getD d 0 = (max 0 ((c.hi.getD d 0 - c.lo.getD d 0).tdiv 2 + 1)).toNat := by
        show (List.zipWith _ c.lo c.hi).getD d 0 = _
        simp [List.getD_eq_getElem?_getD, show d < c.lo.length by omega, show d < c.hi.length by omega]
      rw [this, Int.tdiv_eq_ediv_of_nonneg (by omega)]
      omega
  · have h1 := h.odd d hd
    have h2 := hc d hd
    rw [gs d hd, gh d hd]
    omega
  · rw [h.pts]
    have hb : InBox c.box.start (addVec c.box.start c.box.shape) i ↔ i.length = dims ∧ ∀ d < dims, c.box.start.getD d 0 ≤ i.getD d 0 ∧ i.getD d 0 < c.box.start.getD d 0 + c.box.shape.getD d 0 := by
      unfold InBox
      rw [addVec_length (by omega), ls]
      constructor
      · rintro ⟨a, _, b⟩
        exact ⟨a, fun d hd => by rw [← getD_addVec (by omega)]; exact b d (by omega)⟩
      · rintro ⟨a, b⟩
        exact ⟨a, a, fun d hd => by rw [getD_addVec (by omega)]; exact b d (by omega)⟩
    rw [hb]
    have hl : (node i).length = i.length := by unfold node; simp
    rw [hl]
    refine and_congr_right fun hi => forall_congr' fun d => forall_congr' fun hd => ?_
    have h1 := h.odd d hd
    have h2 : (node i).getD d 0 = 2 * (i.getD d 0 : Int) + 1 := getI_map (f := fun (k : Nat) => 2 * (k : Int) + 1) (by omega)
    rw [h2, gs d hd, gh d hd]
    omega
  · obtain ⟨hl, hx⟩ := (h.pts x).1 hx
    refine ⟨x.map fun y => ((y - 1) / 2).toNat, ?_, by simpa using hl, fun d hd => ?_⟩
    · apply extI
      · unfold node; simp
      · intro d hd
        have h1 := hx d (by omega)
        have h2 := h.odd d (by omega)
        unfold node
        rw [getI_map (f := fun (k : Nat) => 2 * (k : Int) + 1) (z := 0) (by simpa using hd), getN_map (f := fun y => ((y - 1) / 2).toNat) hd]
        omega
    · rw [getN_map (f := fun y => ((y - 1) / 2).toNat) (by omega)]
      have h1 := hx d hd
      have h2 := h.odd d hd
      have h3 := hc d hd
      omega

/-! ### Buffers -/

theorem read_mapG {α β : Type} (g : α → β) (vd : Nat) (h : Hdr) (buf : List α) (i : List Nat) {v : List α} (hr : ND.read vd h buf i = .ok v) :
    ND.read vd h (buf.map g) i = .ok (v.map g) := by
  unfold ND.read at hr ⊢
  by_cases h1 : hasIndex h.shape i = true
  · rw [if_pos h1] at hr ⊢
    rw [List.length_map]
    by_cases h2 : flatInd h i + vd ≤ buf.length
    · rw [if_pos h2] at hr ⊢
      cases hr
      rw [List.map_take, List.map_drop]
    · rw [if_neg h2] at hr; cases hr
  · rw [if_neg h1] at hr; cases hr

/-- There is a buffer with given elements. -/
theorem exists_buf {α : Type} (vd : Nat) {P : List Nat} (hP : Small P) (z : α) (f : List Nat → List α) (hf : ∀ k, (f k).length = vd) :
    ∃ b : List α, b.length = volume vd P ∧ ∀ k, ValidInd P k → read vd (mkHdr vd P) b k = .ok (f k) := by
  have h : ∀ L : List (List Nat), (∀ k ∈ L, ValidInd P k) → ∃ b : List α, b.length = volume vd P ∧ ∀ k ∈ L, read vd (mkHdr vd P) b k = .ok (f k) := by
    intro L
    induction L with
    | nil => intro _; exact ⟨List.replicate (volume vd P) z, by simp, by simp⟩
    | cons k L ih =>
      intro hL
      obtain ⟨b, b1, b2⟩ := ih fun x hx => hL x (by simp [hx])
      obtain ⟨b', _, w2, w3, w4⟩ := C03_write_read vd P _ (mkHdr vd P) hP ViewOf.own b b1 k (hL k (by simp)) (f k) (hf k)
      refine ⟨b', by omega, fun x hx => ?_⟩
      by_cases hxk : x = k
      · rw [hxk]; exact w3
      · have hxL : x ∈ L := by simpa [hxk] using hx
        have hv := hL x hx
        rw [w4 x hv (by rw [addVec_zero _ _ (hL k (by simp)).1]; exact hxk)]
        exact b2 x hxL
  obtain ⟨b, b1, b2⟩ := h (elemLoop (P.map fun _ => 0) P) (fun k hk => inBox_zero_iff.1 (mem_elemLoop.1 hk))
  exact ⟨b, b1, fun k hk => b2 k (mem_elemLoop.2 (inBox_zero_iff.2 hk))⟩

/-! ### The loop over the points -/

theorem vsub_cons_self {n : Nat} (hn : n < 2 ^ 64) (a b : List Nat) : vsub (n :: a) (n :: b) = 0 :: vsub a b := by
  have hU : U64 = 2 ^ 64 := rfl
  show wsub n n :: _ = _
  rw [wsub_eq (Nat.le_refl n) (by omega), Nat.sub_self]; rfl

theorem range_small {n : Nat} {s sh : List Nat} (h : Range n s sh) : Small sh ∧ Small (1 :: sh) := by
  have h1 : Small sh := by
    intro x hx
    obtain ⟨d, hd, rfl⟩ := List.getElem_of_mem hx
    have := h.lt d (by rw [← h.len']; exact hd)
    rw [List.getD_eq_getElem?_getD (l := sh), List.getElem?_eq_getElem hd] at this
    simp only [Option.getD_some] at this
    omega
  exact ⟨h1, fun x hx => by
    rcases List.mem_cons.1 hx with rfl | hx
    · decide
    · exact h1 x hx⟩

/-- After the loop, the buffers hold the field and its magnitude at the visited points. -/
theorem fillLoop (X : Phys K) {n dims : Nat} (hn : n < 2 ^ 62) {m : ChunkMeta} (hr : Range dims m.start m.shape) :
    ∀ (pts : List (List Int)) (b : List K × List K), b.1.length = volume 2 (1 :: m.shape) → b.2.length = volume 1 m.shape →
      (∀ x ∈ pts, ∃ i, x = node i ∧ i.length = dims ∧ ∀ y ∈ i, y < 2 ^ 62) →
      ∃ b', runLoop (fillPoint X n m (mkHdr 2 (1 :: m.shape)) (mkHdr 1 m.shape)) pts b = .ok b' ∧ b'.1.length = b.1.length ∧ b'.2.length = b.2.length ∧
        ∀ k, ValidInd m.shape k →
          (node (addVec m.start k) ∈ pts → read 2 (mkHdr 2 (1 :: m.shape)) b'.1 (0 :: k) = .ok (X.vec n (addVec m.start k)) ∧
            read 1 (mkHdr 1 m.shape) b'.2 k = .ok [X.mag n (addVec m.start k)]) ∧
          (node (addVec m.start k) ∉ pts → read 2 (mkHdr 2 (1 :: m.shape)) b'.1 (0 :: k) = read 2 (mkHdr 2 (1 :: m.shape)) b.1 (0 :: k) ∧
            read 1 (mkHdr 1 m.shape) b'.2 k = read 1 (mkHdr 1 m.shape) b.2 k)
  | [], b, _, _, _ => ⟨b, rfl, rfl, rfl, fun k _ => ⟨fun h => absurd h (by simp), fun _ => ⟨rfl, rfl⟩⟩⟩
  | x :: pts, b, h1, h2, hx => by
      obtain ⟨i, rfl, hil, his⟩ := hx x (by simp)
      have hmap := map_node his
      obtain ⟨sm1, sm2⟩ := range_small hr
      have hcont := C54_contains hr hil (fun y hy => by have := his y hy; omega)
      -- the first point
      have hstep : ∃ b1, fillPoint X n m (mkHdr 2 (1 :: m.shape)) (mkHdr 1 m.shape) (node i) b = .ok b1 ∧ b1.1.length = b.1.length ∧ b1.2.length = b.2.length ∧
          ∀ k, ValidInd m.shape k → (addVec m.start k = i → read 2 (mkHdr 2 (1 :: m.shape)) b1.1 (0 :: k) = .ok (X.vec n i) ∧ read 1 (mkHdr 1 m.shape) b1.2 k = .ok [X.mag n i]) ∧
            (addVec m.start k ≠ i → read 2 (mkHdr 2 (1 :: m.shape)) b1.1 (0 :: k) = read 2 (mkHdr 2 (1 :: m.shape)) b.1 (0 :: k) ∧
              read 1 (mkHdr 1 m.shape) b1.2 k = read 1 (mkHdr 1 m.shape) b.2 k) := by
        have hkin : ∀ k, ValidInd m.shape k → InBox m.start (addVec m.start m.shape) (addVec m.start k) := by
          intro k hk
          have hkl : k.length = dims := by rw [hk.1, hr.len']
          rw [inBox_range hr]
          refine ⟨by rw [addVec_length (by rw [hkl, hr.len])]; exact hr.len, fun d hd => ?_⟩
          rw [getD_addVec (by rw [hkl, hr.len])]
          have := hk.2 d (by rw [hr.len']; exact hd)
          omega
        unfold fillPoint
        rw [hmap]
        by_cases hc : contains m.start m.shape i = true
        · have hin := hcont.1 hc
          have hin' := (inBox_range hr).1 hin
          rw [if_pos hc]
          have hsub : vsub i m.start = subVec i m.start := vsub_eq' (by rw [hil, hr.len]) (fun d hd => by
            have := hin'.2 d (by omega)
            have := hr.lt d (by omega)
            exact ⟨by omega, by omega⟩)
          have hvk : ValidInd m.shape (subVec i m.start) := by
            refine ⟨by rw [length_subVec (by rw [hil, hr.len]), hil, hr.len'], fun d hd => ?_⟩
            rw [getD_subVec (by rw [hil, hr.len])]
            have := hin'.2 d (by rw [← hr.len']; exact hd)
            omega
          have hback : ∀ k, ValidInd m.shape k → (addVec m.start k = i ↔ k = subVec i m.start) := by
            intro k hk
            have hkl : k.length = dims := by rw [hk.1, hr.len']
            constructor
            · intro e
              apply ext_getD
              · rw [length_subVec (by rw [hil, hr.len])]; omega
              · intro d _
                rw [getD_subVec (by rw [hil, hr.len]), ← e, getD_addVec (by rw [hkl, hr.len])]
                omega
            · intro e
              apply ext_getD
              · rw [addVec_length (by rw [hkl, hr.len]), hr.len, hil]
              · intro d hd
                rw [addVec_length (by rw [hkl, hr.len]), hr.len] at hd
                rw [getD_addVec (by rw [hkl, hr.len]), e, getD_subVec (by rw [hil, hr.len])]
                have := hin'.2 d hd
                omega
          obtain ⟨f, w1, w2, w3, w4⟩ := C03_write_read 2 (1 :: m.shape) _ (mkHdr 2 (1 :: m.shape)) sm2 ViewOf.own b.1 h1 (0 :: subVec i m.start)
            (validInd_cons.2 ⟨by omega, hvk⟩) (X.vec n i) (by simp [Phys.vec])
          obtain ⟨a, v1, v2, v3, v4⟩ := C03_write_read 1 m.shape _ (mkHdr 1 m.shape) sm1 ViewOf.own b.2 h2 (subVec i m.start) hvk [X.mag n i] (by simp)
          refine ⟨(f, a), ?_, w2, v2, fun k hk => ⟨fun e => ?_, fun e => ?_⟩⟩
          · simp only
            rw [vsub_cons_self (by omega), hsub]
            unfold Phys.vec at w1
            unfold Phys.mag at v1
            rw [w1, Res.ok_bind, v1, Res.ok_bind]
          · rw [hback k hk] at e
            subst e
            exact ⟨w3, v3⟩
          · rw [Ne, hback k hk] at e
            refine ⟨w4 (0 :: k) (validInd_cons.2 ⟨by omega, hk⟩) ?_, v4 k hk ?_⟩
            · rw [addVec_zero _ _ (by simp [hvk.1])]
              intro e'
              exact e (by simpa using e')
            · rw [addVec_zero _ _ hvk.1]
              exact e
        · rw [if_neg hc]
          refine ⟨b, rfl, rfl, rfl, fun k hk => ⟨fun e => ?_, fun _ => ⟨rfl, rfl⟩⟩⟩
          exact absurd (hcont.2 (e ▸ hkin k hk)) hc
      obtain ⟨b1, e1, l1, l2, hb1⟩ := hstep
      obtain ⟨b', e2, l3, l4, hb2⟩ := fillLoop X hn hr pts b1 (by omega) (by omega) (fun y hy => hx y (by simp [hy]))
      refine ⟨b', by simp only [runLoop, e1, Res.ok_bind, e2], by omega, by omega, fun k hk => ⟨fun hm => ?_, fun hm => ?_⟩⟩
      · by_cases hp : node (addVec m.start k) ∈ pts
        · exact (hb2 k hk).1 hp
        · have he : addVec m.start k = i := by
            rcases List.mem_cons.1 hm with e | e
            · exact node_inj e
            · exact absurd e hp
          obtain ⟨g1, g2⟩ := (hb2 k hk).2 hp
          obtain ⟨g3, g4⟩ := (hb1 k hk).1 he
          rw [g1, g2, he]
          exact ⟨g3, g4⟩
      · have hp : node (addVec m.start k) ∉ pts := fun h => hm (by simp [h])
        have he : addVec m.start k ≠ i := fun e => hm (by rw [e]; simp)
        obtain ⟨g1, g2⟩ := (hb2 k hk).2 hp
        obtain ⟨g3, g4⟩ := (hb1 k hk).2 he
        exact ⟨g1.trans g3, g2.trans g4⟩

end Verif.Meep
