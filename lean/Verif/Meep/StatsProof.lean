import Verif.Meep.Stats
/-
Proofs about the statistics tracker.
-/
set_option linter.unusedSectionVars false
namespace Verif.Meep
open Verif Verif.ND Verif.Ops

variable {K : Type} [Field K] [LinearOrder K] [IsStrictOrderedRing K] {Key : Type} [DecidableEq Key]

/-! ### Specification -/

/-- Positions `i` and `j` are in the same block of `m × ... × m` positions. -/
def SameCell (m : Nat) (i j : List Nat) : Prop := i.length = j.length ∧ ∀ d < i.length, i.getD d 0 / m = j.getD d 0 / m

/-- The first `AddRegion` call with this key had this shape. -/
def Added (ops : List (Op Key K)) (key : Key) (shape : List Nat) : Prop :=
  ∃ pre post, ops = pre ++ .add key shape :: post ∧ ∀ s, Op.add key s ∉ pre

/-- A legal use: shapes whose extents fit into 64 bits, regions are added before they are updated, and a slice has the shape of its region. -/
structure Legal (m : Nat) (ops : List (Op Key K)) : Prop where
  fits : ∀ key s, Op.add key s ∈ ops → ∀ x ∈ s, x + m < 2 ^ 64
  order : ∀ pre post key s v, ops = pre ++ .update key s v :: post → Added pre key s ∧ v.length = volume 1 s

/-- `x` is the value, in some slice of region `key`, of some position in the cell of `i`. -/
def Seen (m : Nat) (ops : List (Op Key K)) (key : Key) (i : List Nat) (x : K) : Prop :=
  ∃ s v j, Op.update key s v ∈ ops ∧ ValidInd s j ∧ SameCell m i j ∧ read 1 (mkHdr 1 s) v j = .ok [x]

/-- `M` is the maximum of zero and everything seen in the cell of `i`. -/
structure IsRunningMax (m : Nat) (ops : List (Op Key K)) (key : Key) (i : List Nat) (M : K) : Prop where
  nonneg : 0 ≤ M
  upper : ∀ x, Seen m ops key i x → x ≤ M
  attained : M = 0 ∨ Seen m ops key i M

/-! ### Proof -/

theorem sameCell_iff {m : Nat} {i j : List Nat} : SameCell m i j ↔ i.map (· / m) = j.map (· / m) := by
  constructor
  · rintro ⟨h1, h2⟩
    apply vec_ext
    · simp [h1]
    · intro d hd
      simp at hd
      rw [getD_mapN hd, getD_mapN (by omega)]
      exact h2 d hd
  · intro h
    have hl : i.length = j.length := by simpa using congrArg List.length h
    refine ⟨hl, fun d hd => ?_⟩
    have := congrArg (fun l => l.getD d 0) h
    simp only at this
    rwa [getD_mapN hd, getD_mapN (by omega)] at this

def cells (m : Nat) (s : List Nat) : List Nat := s.map fun x => (x + m - 1) / m

theorem toDsShape_eq {m : Nat} (hm : 0 < m) {s : List Nat} (hs : ∀ x ∈ s, x + m < 2 ^ 64) : toDsShape m s = .ok (cells m s) := by
  unfold toDsShape
  rw [if_neg (by omega)]
  congr 1
  unfold vsubS vaddS cells
  rw [List.map_map, List.map_map]
  apply List.map_congr_left
  intro x hx
  have := hs x hx
  have hU : U64 = 2 ^ 64 := rfl
  simp only [Function.comp]
  rw [wadd_eq (by omega), wsub_eq (by omega) (by omega)]

theorem toDsInd_eq {m : Nat} (hm : 0 < m) (i : List Nat) : toDsInd m i = .ok (i.map (· / m)) := by
  unfold toDsInd
  rw [if_neg (by omega)]

theorem valid_cell {m : Nat} (hm : 0 < m) {s j : List Nat} (h : ValidInd s j) : ValidInd (cells m s) (j.map (· / m)) := by
  obtain ⟨h1, h2⟩ := h
  refine ⟨by simp [cells, h1], fun d hd => ?_⟩
  have hd' : d < s.length := by simpa [cells] using hd
  unfold cells
  rw [getD_mapN (by omega), getD_mapN hd', lt_ceil_iff hm]
  have := h2 d hd'
  calc j.getD d 0 / m * m ≤ j.getD d 0 := Nat.div_mul_le_self _ _
    _ < _ := this

theorem small_cells {m : Nat} (hm : 0 < m) {s : List Nat} (hs : ∀ x ∈ s, x + m < 2 ^ 64) : Small (cells m s) := by
  intro x hx
  obtain ⟨y, hy, rfl⟩ := List.mem_map.1 hx
  have := hs y hy
  have := ceil_small (a := y) hm
  omega

def at1 (s : List Nat) (v : List K) (j : List Nat) : K := v.getD (lin s j) 0

theorem read_one {s : List Nat} {v : List K} (hv : v.length = volume 1 s) {j : List Nat} (hj : ValidInd s j) :
    read 1 (mkHdr 1 s) v j = .ok [at1 s v j] := by
  rw [read_own hv hj]
  have hb := blk_le (vd := 1) hj
  congr 1
  unfold at1
  have hlt : lin s j < v.length := by omega
  rw [Nat.one_mul, List.drop_eq_getElem_cons hlt, List.getD_eq_getElem?_getD, List.getElem?_eq_getElem hlt]
  rfl

/-- One `UpdateStatisticsForRegion` loop. -/
theorem updLoop_ok {m : Nat} (hm : 0 < m) {s : List Nat} (hs : ∀ x ∈ s, x + m < 2 ^ 64) {v : List K} (hv : v.length = volume 1 s) :
    ∀ (L : List (List Nat)) (mx : List K), mx.length = volume 1 (cells m s) → (∀ j ∈ L, ValidInd s j) →
      ∃ mx', runLoop (maxUpd m (mkHdr 1 s) v (mkHdr 1 (cells m s))) L mx = .ok mx' ∧ mx'.length = mx.length ∧
        ∀ c, ValidInd (cells m s) c → at1 (cells m s) mx c ≤ at1 (cells m s) mx' c ∧
          (∀ j ∈ L, j.map (· / m) = c → at1 s v j ≤ at1 (cells m s) mx' c) ∧
          (at1 (cells m s) mx' c = at1 (cells m s) mx c ∨ ∃ j ∈ L, j.map (· / m) = c ∧ at1 s v j = at1 (cells m s) mx' c)
  | [], mx, _, _ => ⟨mx, rfl, rfl, fun c _ => ⟨le_refl _, by simp, Or.inl rfl⟩⟩
  | j :: L, mx, hmx, hL => by
      have hj := hL j (by simp)
      have hc := valid_cell hm hj
      have hone : ∃ mx1, maxUpd m (mkHdr 1 s) v (mkHdr 1 (cells m s)) j mx = .ok mx1 ∧ mx1.length = mx.length ∧
          at1 (cells m s) mx1 (j.map (· / m)) = max (at1 s v j) (at1 (cells m s) mx (j.map (· / m))) ∧
          ∀ c, ValidInd (cells m s) c → c ≠ j.map (· / m) → at1 (cells m s) mx1 c = at1 (cells m s) mx c := by
        unfold maxUpd
        rw [toDsInd_eq hm, Res.ok_bind, read_one hv hj, Res.ok_bind, read_one hmx hc, Res.ok_bind]
        simp only
        by_cases hgt : at1 s v j > at1 (cells m s) mx (j.map (· / m))
        · rw [if_pos hgt]
          obtain ⟨b, w1, w2, w3, w4⟩ := C03_write_read 1 (cells m s) _ (mkHdr 1 (cells m s)) (small_cells hm hs) ViewOf.own mx hmx _ hc [at1 s v j] rfl
          refine ⟨b, w1, w2, ?_, ?_⟩
          · rw [read_one (by omega) hc] at w3
            rw [max_eq_left (le_of_lt hgt)]
            simpa using w3
          · intro c hcv hne
            have := w4 c hcv (by rw [addVec_zero _ _ hc.1]; exact hne)
            rw [read_one (by omega) hcv, read_one hmx hcv] at this
            simpa using this
        · rw [if_neg hgt]
          exact ⟨mx, rfl, rfl, by rw [max_eq_right (not_lt.1 hgt)], fun _ _ _ => rfl⟩
      obtain ⟨mx1, e1, l1, o1, o2⟩ := hone
      obtain ⟨mx2, e2, l2, o3⟩ := updLoop_ok hm hs hv L mx1 (by omega) (fun x hx => hL x (by simp [hx]))
      refine ⟨mx2, by simp only [runLoop, e1, Res.ok_bind, e2], by omega, fun c hcv => ?_⟩
      obtain ⟨p1, p2, p3⟩ := o3 c hcv
      by_cases hcj : c = j.map (· / m)
      · have h1 : at1 (cells m s) mx1 c = max (at1 s v j) (at1 (cells m s) mx c) := by rw [hcj]; exact o1
        rw [h1] at p1 p3
        refine ⟨le_trans (le_max_right _ _) p1, ?_, ?_⟩
        · intro x hx hxc
          rcases List.mem_cons.1 hx with rfl | hx
          · exact le_trans (le_max_left _ _) p1
          · exact p2 x hx hxc
        · rcases p3 with p3 | ⟨x, hx, hxc, hxe⟩
          · rcases max_choice (at1 s v j) (at1 (cells m s) mx c) with h | h
            · right; exact ⟨j, by simp, hcj.symm, by rw [p3, h]⟩
            · left; rw [p3, h]
          · right; exact ⟨x, by simp [hx], hxc, hxe⟩
      · rw [o2 c hcv hcj] at p1 p3
        refine ⟨p1, ?_, ?_⟩
        · intro x hx hxc
          rcases List.mem_cons.1 hx with rfl | hx
          · exact absurd hxc.symm hcj
          · exact p2 x hx hxc
        · rcases p3 with p3 | ⟨x, hx, hxc, hxe⟩
          · exact Or.inl p3
          · exact Or.inr ⟨x, by simp [hx], hxc, hxe⟩

/-- What the tracker knows about one region. -/
structure RInv (m : Nat) (ops : List (Op Key K)) (key : Key) (s : List Nat) (mx : List K) : Prop where
  added : Added ops key s
  len : mx.length = volume 1 (cells m s)
  nonneg : ∀ c, ValidInd (cells m s) c → 0 ≤ at1 (cells m s) mx c
  upper : ∀ c, ValidInd (cells m s) c → ∀ v j, Op.update key s v ∈ ops → ValidInd s j → j.map (· / m) = c → at1 s v j ≤ at1 (cells m s) mx c
  att : ∀ c, ValidInd (cells m s) c → at1 (cells m s) mx c = 0 ∨ ∃ v j, Op.update key s v ∈ ops ∧ ValidInd s j ∧ j.map (· / m) = c ∧ at1 s v j = at1 (cells m s) mx c

structure TInv (m : Nat) (ops : List (Op Key K)) (t : Tracker Key K) : Prop where
  fac : t.m = m
  none : ∀ key, t.data key = none → ∀ s, Op.add key s ∉ ops
  some : ∀ key r, t.data key = some r → ∃ s, r.1 = mkHdr 1 (cells m s) ∧ RInv m ops key s r.2

theorem added_unique {ops : List (Op Key K)} {key : Key} {s s' : List Nat} (h : Added ops key s) (h' : Added ops key s') : s = s' := by
  obtain ⟨p, q, e, hn⟩ := h
  obtain ⟨p', q', e', hn'⟩ := h'
  rw [e] at e'
  rcases List.append_eq_append_iff.1 e' with ⟨c, e1, e2⟩ | ⟨c, e1, e2⟩
  · cases c with
    | nil => simp at e2; exact e2.1
    | cons a c =>
      simp at e2
      exfalso; apply hn' s; rw [e1]; simp [← e2.1]
  · cases c with
    | nil => simp at e2; exact e2.1.symm
    | cons a c =>
      simp at e2
      exfalso; apply hn s'; rw [e1]; simp [← e2.1]

theorem Added.append {ops : List (Op Key K)} {key : Key} {s : List Nat} (h : Added ops key s) (os : List (Op Key K)) : Added (ops ++ os) key s := by
  obtain ⟨p, q, e, hn⟩ := h
  exact ⟨p, q ++ os, by rw [e]; simp, hn⟩

theorem Added.mem {ops : List (Op Key K)} {key : Key} {s : List Nat} (h : Added ops key s) : Op.add key s ∈ ops := by
  obtain ⟨p, q, e, hn⟩ := h
  rw [e]; simp

theorem step_ok {m : Nat} (hm : 0 < m) {pre : List (Op Key K)} {o : Op Key K} (hl : Legal m (pre ++ [o])) {t : Tracker Key K} (hi : TInv m pre t) :
    ∃ t', t.step o = .ok t' ∧ TInv m (pre ++ [o]) t' := by
  cases o with
  | add key s =>
    have hs : ∀ x ∈ s, x + m < 2 ^ 64 := hl.fits key s (by simp)
    have hkeep : ∀ k s' mx, RInv m pre k s' mx → RInv m (pre ++ [Op.add key s]) k s' mx := by
      intro k s' mx h
      refine ⟨h.added.append _, h.len, h.nonneg, ?_, ?_⟩
      · intro c hc v j hv; exact h.upper c hc v j (by simpa using hv)
      · intro c hc
        rcases h.att c hc with h' | ⟨v, j, hv, h'⟩
        · exact Or.inl h'
        · exact Or.inr ⟨v, j, by simp [hv], h'⟩
    have hsh : toDsShape t.m s = .ok (cells m s) := by rw [hi.fac, toDsShape_eq hm hs]
    refine ⟨⟨t.m, fun k => if k = key then emplace (t.data key) (mkHdr 1 (cells m s), List.replicate (volume 1 (cells m s)) 0) else t.data k⟩, by
      show t.add key s 0 = _
      unfold Tracker.add
      rw [hsh, Res.ok_bind], ⟨hi.fac, ?_, ?_⟩⟩
    · intro k hk s'
      simp only at hk
      by_cases he : k = key
      · rw [if_pos he] at hk
        cases hd : t.data key <;> rw [hd] at hk <;> cases hk
      · rw [if_neg he] at hk
        have := hi.none k hk s'
        simp [this, he]
    · intro k r hk
      simp only at hk
      by_cases he : k = key
      · rw [if_pos he] at hk
        subst he
        cases hd : t.data k with
        | some r0 =>
          rw [hd] at hk
          simp [emplace] at hk; subst hk
          obtain ⟨s', e1, e2⟩ := hi.some k _ hd
          exact ⟨s', e1, hkeep _ _ _ e2⟩
        | none =>
          rw [hd] at hk
          simp [emplace] at hk; subst hk
          have hno := hi.none k hd
          have hnu : ∀ s' v, Op.update k s' v ∉ pre := by
            intro s' v hmem
            obtain ⟨p, q, e⟩ := List.append_of_mem hmem
            have := (hl.order p (q ++ [Op.add k s]) k s' v (by rw [e]; simp)).1.mem
            exact hno s' (by rw [e]; simp [this])
          have hz : ∀ c, ValidInd (cells m s) c → at1 (cells m s) (List.replicate (volume 1 (cells m s)) (0 : K)) c = 0 := by
            intro c _
            unfold at1
            simp only [List.getD_eq_getElem?_getD, List.getElem?_replicate]
            split <;> rfl
          refine ⟨s, rfl, ⟨⟨pre, [], rfl, hno⟩, by simp, fun c hc => le_of_eq (hz c hc).symm, ?_, fun c hc => Or.inl (hz c hc)⟩⟩
          intro c hc v j hv
          exact absurd (by simpa using hv) (hnu s v)
      · rw [if_neg he] at hk
        obtain ⟨s', e1, e2⟩ := hi.some k r hk
        exact ⟨s', e1, hkeep _ _ _ e2⟩
  | update key s v =>
    obtain ⟨hadd, hv⟩ := hl.order pre [] key s v rfl
    cases hd : t.data key with
    | none => exact absurd hadd.mem (hi.none key hd s)
    | some r =>
      obtain ⟨s', e1, e2⟩ := hi.some key r hd
      obtain rfl := added_unique hadd e2.added
      have hs : ∀ x ∈ s, x + m < 2 ^ 64 := hl.fits key s (by simp [hadd.mem])
      obtain ⟨hm0, mx⟩ := r
      simp only at e1 e2
      subst e1
      have hmem : ∀ j, j ∈ arrayElemLoop (mkHdr 1 s).shape ↔ ValidInd s j := by
        intro j
        show j ∈ arrayElemLoop s ↔ _
        unfold arrayElemLoop
        rw [mem_elemLoop, inBox_zero_iff]
      obtain ⟨mx', u1, u2, u3⟩ := updLoop_ok hm hs hv (arrayElemLoop (mkHdr 1 s).shape) mx e2.len (fun j hj => (hmem j).1 hj)
      have u1' : runLoop (maxUpd t.m (mkHdr 1 s) v (mkHdr 1 (cells m s))) (arrayElemLoop (mkHdr 1 s).shape) mx = .ok mx' := by rw [hi.fac]; exact u1
      refine ⟨⟨t.m, fun k => if k = key then some (mkHdr 1 (cells m s), mx') else t.data k⟩, by
        show t.update key (mkHdr 1 s) v = _
        unfold Tracker.update
        rw [hd]
        simp only
        rw [u1', Res.ok_bind], ⟨hi.fac, ?_, ?_⟩⟩
      · intro k hk s'
        simp only at hk
        by_cases he : k = key
        · rw [if_pos he] at hk; cases hk
        · rw [if_neg he] at hk
          have := hi.none k hk s'
          simp [this]
      · intro k r hk
        simp only at hk
        by_cases he : k = key
        · rw [if_pos he] at hk
          simp at hk; subst hk; subst he
          refine ⟨s, rfl, ⟨hadd.append _, by show mx'.length = _; rw [u2]; exact e2.len, ?_, ?_, ?_⟩⟩
          · intro c hc
            exact le_trans (e2.nonneg c hc) (u3 c hc).1
          · intro c hc w j hw hj hjc
            rcases List.mem_append.1 hw with hw | hw
            · exact le_trans (e2.upper c hc w j hw hj hjc) (u3 c hc).1
            · simp at hw; subst hw
              exact (u3 c hc).2.1 j ((hmem j).2 hj) hjc
          · intro c hc
            rcases (u3 c hc).2.2 with h | ⟨j, hj, hjc, hje⟩
            · rcases e2.att c hc with h' | ⟨w, j, hw, hj, hjc, hje⟩
              · left; show at1 _ mx' c = 0; rw [h, h']
              · right; exact ⟨w, j, by simp [hw], hj, hjc, by show _ = at1 _ mx' c; rw [h]; exact hje⟩
            · right; exact ⟨v, j, by simp, (hmem j).1 hj, hjc, hje⟩
        · rw [if_neg he] at hk
          obtain ⟨s', e1', e2'⟩ := hi.some k r hk
          refine ⟨s', e1', ⟨e2'.added.append _, e2'.len, e2'.nonneg, ?_, ?_⟩⟩
          · intro c hc w j hw
            exact e2'.upper c hc w j (by simpa [he] using hw)
          · intro c hc
            rcases e2'.att c hc with h' | ⟨w, j, hw, h'⟩
            · exact Or.inl h'
            · exact Or.inr ⟨w, j, by simp [hw], h'⟩

theorem Legal.prefix {m : Nat} {a b : List (Op Key K)} (h : Legal m (a ++ b)) : Legal m a :=
  ⟨fun k s hm => h.fits k s (by simp [hm]), fun p q k s v e => h.order p (q ++ b) k s v (by rw [e]; simp)⟩

theorem run_ok {m : Nat} (hm : 0 < m) : ∀ (os pre : List (Op Key K)) (t : Tracker Key K), Legal m (pre ++ os) → TInv m pre t →
    ∃ t', t.run os = .ok t' ∧ TInv m (pre ++ os) t'
  | [], pre, t, _, hi => ⟨t, rfl, by simpa using hi⟩
  | o :: os, pre, t, hl, hi => by
      have hl' : Legal m ((pre ++ [o]) ++ os) := by simpa using hl
      obtain ⟨t1, e1, i1⟩ := step_ok hm hl'.prefix hi
      obtain ⟨t2, e2, i2⟩ := run_ok hm os (pre ++ [o]) t1 hl' i1
      refine ⟨t2, ?_, by simpa using i2⟩
      show (t.step o).bind _ = _
      rw [e1, Res.ok_bind, e2]

theorem new_inv (m : Nat) : TInv m ([] : List (Op Key K)) (Tracker.new Key K m) :=
  ⟨rfl, by simp, by intro k r h; cases h⟩

theorem maxLocal_ok {m : Nat} (hm : 0 < m) {ops : List (Op Key K)} (hl : Legal m ops) {t : Tracker Key K} (hi : TInv m ops t) {key : Key} {s : List Nat}
    (ha : Added ops key s) {i : List Nat} (hv : ValidInd s i) : ∃ M, t.maxLocal key i = .ok M ∧ IsRunningMax m ops key i M := by
  cases hd : t.data key with
  | none => exact absurd ha.mem (hi.none key hd s)
  | some r =>
    obtain ⟨s', e1, e2⟩ := hi.some key r hd
    obtain rfl := added_unique ha e2.added
    obtain ⟨h0, mx⟩ := r
    simp only at e1 e2
    subst e1
    have hc := valid_cell hm hv
    refine ⟨at1 (cells m s) mx (i.map (· / m)), ?_, ⟨e2.nonneg _ hc, ?_, ?_⟩⟩
    · unfold Tracker.maxLocal
      rw [hd]
      simp only
      rw [hi.fac, toDsInd_eq hm, Res.ok_bind, read_one e2.len hc, Res.ok_bind]
    · rintro x ⟨s2, v, j, hu, hj, hcell, hr⟩
      obtain ⟨p, q, e⟩ := List.append_of_mem hu
      obtain ⟨a1, a2⟩ := hl.order p q key s2 v e
      have a3 : Added ops key s2 := by rw [e]; exact a1.append _
      obtain rfl := added_unique ha a3
      rw [read_one a2 hj] at hr
      simp at hr
      rw [← hr]
      exact e2.upper _ hc v j hu hj (sameCell_iff.1 hcell).symm
    · rcases e2.att _ hc with h | ⟨v, j, hu, hj, hjc, hje⟩
      · exact Or.inl h
      · right
        obtain ⟨p, q, e⟩ := List.append_of_mem hu
        obtain ⟨a1, a2⟩ := hl.order p q key s v e
        exact ⟨s, v, j, hu, hj, sameCell_iff.2 hjc.symm, by rw [read_one a2 hj, hje]⟩

end Verif.Meep
