import Verif.Dist.Props28
/-
Storing time slices: the sequence of `RegisterChunk` and `AppendSlice<0>` calls for a fixed set of spatial boxes ("columns"), at the level of the calls of the
chunk library.
-/
namespace Verif.Meep
open Verif Verif.ND Verif.Dist Verif.Tree

variable {C : Cfg}

/-- The spatial boxes `[lo c, hi c)`, `c < m`, the slice of box `c` at time index `n`, and the names of the chunk files. -/
structure Cols where
  m : Nat
  lo : Nat → List Nat
  hi : Nat → List Nat
  slice : Nat → Nat → Arr
  uuid : Nat → Nat → List Nat

/-- MEEPCylindricalGreensFunctionCalculator.hxx 398-437, what is called for box `c` at time index `n`: a new chunk if `ind_time % calc_chunk_size_t == 0`, otherwise
    the slice is appended. -/
def Cols.op (K : Cols) (T n c : Nat) : LOp :=
  if n % T = 0 then .register (K.uuid n c) (K.slice n c) (n :: K.lo c) ((n + 1) :: K.hi c) 0 false
  else .append (n :: K.lo c) (K.slice n c)

/-- The calls at time index `n` for the boxes before `k`. -/
def Cols.row (K : Cols) (T n k : Nat) : List LOp := (List.range k).map (K.op T n)

/-- The calls for the time indices before `N`. -/
def Cols.all (K : Cols) (T : Nat) : Nat → List LOp
  | 0 => []
  | N + 1 => K.all T N ++ K.row T N K.m

/-- The boxes are not empty and disjoint, the slices fit, names are not used twice. -/
structure Cols.Ok (C : Cfg) (K : Cols) (T N : Nat) : Prop where
  pos : 0 < T
  len : ∀ c < K.m, (K.lo c).length + 1 = C.dims ∧ (K.hi c).length + 1 = C.dims
  box : ∀ c < K.m, ∀ d < (K.lo c).length, (K.lo c).getD d 0 < (K.hi c).getD d 0 ∧ (K.hi c).getD d 0 < 2 ^ 62
  disj : ∀ c < K.m, ∀ c' < K.m, c ≠ c' → DisjointBox (K.lo c) (K.hi c) (K.lo c') (K.hi c')
  arr : ∀ n < N, ∀ c < K.m, (K.slice n c).Ok C ∧ (K.slice n c).shape = 1 :: subVec (K.hi c) (K.lo c)
  fit : ∀ c < K.m, ∀ h, 0 < h → h ≤ T → Fit C (h :: subVec (K.hi c) (K.lo c))
  uuid : ∀ n < N, ∀ c < K.m, K.uuid n c ≠ [] ∧ (K.uuid n c).length < 2 ^ 64
  inj : ∀ n < N, ∀ n' < N, ∀ c < K.m, ∀ c' < K.m, K.uuid n c = K.uuid n' c' → n = n' ∧ c = c'
  steps : N < 2 ^ 62
  ids : N * K.m + 1 < 2 ^ 64

/-- The chunk of box `c` for the time indices `[q * T, (q + 1) * T)`, as far as they are below `n`. -/
structure PieceAt (C : Cfg) (K : Cols) (T n q c : Nat) (p : Piece) : Prop where
  id : p.id = q * K.m + c
  file : p.file = K.uuid (q * T) c
  start : p.start = (q * T) :: K.lo c
  stop : p.stop = min ((q + 1) * T) n :: K.hi c
  overlap : p.overlap = 0
  val : ∀ t i, InBox p.start p.stop (t :: i) → p.val (t :: i) = elemOr ((K.slice t c).get C.vd (0 :: subVec i (K.lo c)))

/-- The library after all slices of the time indices before `n` and those of time index `n` for the boxes before `k`. -/
structure SInv (C : Cfg) (K : Cols) (T n k dir : Nat) (w : World) (l : LibSpec) : Prop where
  cur : w.cur = some l
  dir : l.dir = dir
  next : l.next = l.pieces.length
  len : l.pieces.length = if n % T = 0 then n / T * K.m + k else (n / T + 1) * K.m
  get : ∀ j p, l.pieces[j]? = some p → PieceAt C K T (if j % K.m < k then n + 1 else n) (j / K.m) (j % K.m) p

theorem disjoint_cons_tail {a b a' b' : Nat} {bs es bs' es' : List Nat} (h : DisjointBox bs es bs' es') :
    DisjointBox (a :: bs) (b :: es) (a' :: bs') (b' :: es') := by
  intro i hi
  obtain ⟨h1, h2⟩ := hi
  obtain ⟨_, _, i0, is, e, rfl, _, hb⟩ := inBox_cons_left.1 h1
  cases e
  exact h is ⟨hb, (inBox_cons.1 h2).2⟩

theorem disjoint_cons_head {a b a' b' : Nat} {bs es bs' es' : List Nat} (h : b ≤ a') : DisjointBox (a :: bs) (b :: es) (a' :: bs') (b' :: es') := by
  intro i hi
  obtain ⟨h1, h2⟩ := hi
  obtain ⟨_, _, i0, is, e, rfl, hlt, hb⟩ := inBox_cons_left.1 h1
  cases e
  have := (inBox_cons.1 h2).1
  omega

theorem lo_inBox {lo hi : List Nat} (hl : hi.length = lo.length) (h : ∀ d < lo.length, lo.getD d 0 < hi.getD d 0) : InBox lo hi lo :=
  ⟨rfl, hl.symm, fun d hd => ⟨Nat.le_refl _, h d hd⟩⟩

theorem Cols.Ok.lo_ne {K : Cols} {T N : Nat} (hK : K.Ok C T N) {c c' : Nat} (hc : c < K.m) (hc' : c' < K.m) (hne : c ≠ c') : K.lo c ≠ K.lo c' := by
  intro h
  have h1 := lo_inBox (by have := hK.len c hc; omega) (fun d hd => (hK.box c hc d hd).1)
  have h2 := lo_inBox (by have := hK.len c' hc'; omega) (fun d hd => (hK.box c' hc' d hd).1)
  rw [← h] at h2
  have h3 := hK.disj c hc c' hc' hne (K.lo c)
  rw [← h] at h3
  exact h3 ⟨h1, h2⟩

theorem subVec_cons (a b : Nat) (as bs : List Nat) : subVec (a :: as) (b :: bs) = (a - b) :: subVec as bs := rfl

theorem map_add_zero (l : List Nat) : l.map (· + 0) = l := by simp

variable {K : Cols} {T N : Nat}

theorem div_mod_of_div {j m : Nat} (_ : 0 < m) : j = j / m * m + j % m := by
  have := Nat.div_add_mod j m
  rw [Nat.mul_comm]; exact this.symm

/-- A new chunk. -/
theorem sinv_register {n k dir : Nat} {w : World} {l : LibSpec} (hK : K.Ok C T N) (hn : n < N) (hk : k < K.m) (h0 : n % T = 0)
    (h : SInv C K T n k dir w l) : Legal C w (K.op T n k) ∧ ∃ l', SInv C K T n (k + 1) dir (w.next C (K.op T n k)) l' := by
  have hT := hK.pos
  have hm : 0 < K.m := by omega
  have hnT : n / T * T = n := Nat.div_mul_cancel (Nat.dvd_of_mod_eq_zero h0)
  have hlen : l.pieces.length = n / T * K.m + k := by rw [h.len, if_pos h0]
  have hop : K.op T n k = .register (K.uuid n k) (K.slice n k) (n :: K.lo k) ((n + 1) :: K.hi k) 0 false := if_pos h0
  obtain ⟨l1, l2⟩ := hK.len k hk
  obtain ⟨ha, hsh⟩ := hK.arr n hn k hk
  have hsub : (subVec ((n + 1) :: K.hi k) (n :: K.lo k)).map (· + 2 * 0) = (K.slice n k).shape := by
    rw [hsh, subVec_cons]
    simp
  -- every chunk that is there is at an index before the new one
  have hj : ∀ j p, l.pieces[j]? = some p → j < n / T * K.m + k ∧ PieceAt C K T (if j % K.m < k then n + 1 else n) (j / K.m) (j % K.m) p :=
    fun j p e => ⟨by rw [← hlen]; exact lt_of_get? e, h.get j p e⟩
  have hq : ∀ j, j < n / T * K.m + k → j / K.m < n / T ∨ (j / K.m = n / T ∧ j % K.m < k) := by
    intro j hlt
    have e := div_mod_of_div (j := j) hm
    have hmod := Nat.mod_lt j hm
    rcases Nat.lt_trichotomy (j / K.m) (n / T) with hh | hh | hh
    · exact Or.inl hh
    · right; refine ⟨hh, ?_⟩; rw [hh] at e; omega
    · exfalso
      have : (n / T + 1) * K.m ≤ j / K.m * K.m := Nat.mul_le_mul_right _ hh
      rw [Nat.add_mul] at this
      omega
  have hids : l.next + 1 < 2 ^ 64 := by
    rw [h.next, hlen]
    have h1 : n / T ≤ n := Nat.div_le_self _ _
    have h2 : n / T * K.m ≤ n * K.m := Nat.mul_le_mul_right _ h1
    have h3 : (n + 1) * K.m ≤ N * K.m := Nat.mul_le_mul_right _ hn
    rw [Nat.add_mul] at h3
    have := hK.ids
    omega
  have hdisj : ∀ p ∈ l.pieces, DisjointBox p.start p.stop (n :: K.lo k) ((n + 1) :: K.hi k) := by
    intro p hp
    obtain ⟨j, e⟩ := List.getElem?_of_mem hp
    obtain ⟨hlt, hp⟩ := hj j p e
    rw [hp.start, hp.stop]
    by_cases hc : j % K.m = k
    · rw [hc, if_neg (by omega)]
      exact disjoint_cons_head (by omega)
    · exact disjoint_cons_tail (hK.disj _ (Nat.mod_lt j hm) k hk hc)
  have huuid : ∀ p ∈ l.pieces, p.file ≠ K.uuid n k := by
    intro p hp he
    obtain ⟨j, e⟩ := List.getElem?_of_mem hp
    obtain ⟨hlt, hp⟩ := hj j p e
    rw [hp.file] at he
    have h1 : j / K.m * T ≤ n := by
      rcases hq j hlt with hh | hh
      · calc j / K.m * T ≤ n / T * T := Nat.mul_le_mul_right _ (by omega)
          _ = n := hnT
      · rw [hh.1, hnT]; exact Nat.le_refl _
    obtain ⟨e1, e2⟩ := hK.inj _ (by omega) n hn _ (Nat.mod_lt j hm) k hk he
    rcases hq j hlt with hh | hh
    · have : (j / K.m + 1) * T ≤ n / T * T := Nat.mul_le_mul_right _ hh
      rw [Nat.add_mul] at this
      omega
    · omega
  have hid : ∀ p ∈ l.pieces, p.id ≠ l.next := by
    intro p hp
    obtain ⟨j, e⟩ := List.getElem?_of_mem hp
    obtain ⟨hlt, hp⟩ := hj j p e
    rw [hp.id, ← div_mod_of_div hm, h.next, hlen]
    omega
  have hlt : ∀ d < C.dims, (n :: K.lo k).getD d 0 < ((n + 1) :: K.hi k).getD d 0 ∧ ((n + 1) :: K.hi k).getD d 0 < 2 ^ 62 := by
    intro d hd
    have := hK.steps
    cases d with
    | zero => exact ⟨Nat.lt_succ_self n, by show n + 1 < _; omega⟩
    | succ d => simpa using hK.box k hk d (by omega)
  refine ⟨?_, ?_⟩
  · rw [hop]
    exact ⟨l, h.cur, ⟨ha, by simpa using l1, by simpa using l2, hlt, by decide, hsub.symm, hdisj, ⟨(hK.uuid n hn k hk).1, (hK.uuid n hn k hk).2, huuid⟩,
      fun e => (by cases e), hid, hids⟩⟩
  · refine ⟨⟨l.dir, l.next + 1, l.pieces ++ [newPiece C l.next (K.uuid n k) (K.slice n k) (n :: K.lo k) ((n + 1) :: K.hi k) 0 false]⟩, ⟨?_, h.dir, ?_, ?_, ?_⟩⟩
    · rw [hop]
      show (World.next C w _).cur = _
      unfold World.next
      rw [h.cur]
    · simp [h.next]
    · simp [hlen, h0]; omega
    · intro j p e
      rcases Nat.lt_trichotomy j l.pieces.length with hlt' | rfl | hgt
      · rw [List.getElem?_append_left hlt'] at e
        obtain ⟨hlt, hp⟩ := hj j p e
        have hcount : (if j % K.m < k + 1 then n + 1 else n) = (if j % K.m < k then n + 1 else n) ∨ (j % K.m = k ∧ (j / K.m + 1) * T ≤ n) := by
          by_cases hc : j % K.m = k
          · right
            refine ⟨hc, ?_⟩
            rcases hq j hlt with hh | hh
            · calc (j / K.m + 1) * T ≤ n / T * T := Nat.mul_le_mul_right _ hh
                _ = n := hnT
            · omega
          · left
            by_cases h1 : j % K.m < k
            · rw [if_pos h1, if_pos (by omega)]
            · rw [if_neg h1, if_neg (by omega)]
        rcases hcount with hh | ⟨hc, hle⟩
        · rw [hh]; exact hp
        · rw [if_neg (by omega)] at hp
          rw [if_pos (by omega)]
          exact ⟨hp.id, hp.file, hp.start, by rw [hp.stop]; congr 1; omega, hp.overlap, hp.val⟩
      · simp at e
        subst e
        have hdiv : l.pieces.length / K.m = n / T := by
          rw [hlen, Nat.mul_comm, Nat.mul_add_div hm, Nat.div_eq_of_lt hk, Nat.add_zero]
        have hmod : l.pieces.length % K.m = k := by
          rw [hlen, Nat.mul_comm, Nat.mul_add_mod, Nat.mod_eq_of_lt hk]
        rw [hdiv, hmod, if_pos (by omega)]
        refine ⟨?_, ?_, ?_, ?_, rfl, ?_⟩
        · show l.next = _
          rw [h.next, hlen]
        · show (if (false && (K.slice n k).null) = true then [] else K.uuid n k) = _
          rw [hnT]; simp
        · show n :: K.lo k = _
          rw [hnT]
        · show (n + 1) :: K.hi k = _
          rw [Nat.add_mul, hnT]
          congr 1
          omega
        · intro t i hb
          have hb' : InBox (n :: K.lo k) ((n + 1) :: K.hi k) (t :: i) := hb
          have ht := (inBox_cons.1 hb').1
          have : t = n := by omega
          subst this
          show elemOr ((K.slice t k).get C.vd ((subVec (t :: i) (t :: K.lo k)).map (· + 0))) = _
          rw [map_add_zero, subVec_cons, Nat.sub_self]
      · have : (l.pieces ++ [newPiece C l.next (K.uuid n k) (K.slice n k) (n :: K.lo k) ((n + 1) :: K.hi k) 0 false])[j]? = none :=
          List.getElem?_eq_none (by simp; omega)
        rw [this] at e
        cases e

/-- A slice behind an existing chunk. -/
theorem sinv_append {n k dir : Nat} {w : World} {l : LibSpec} (hK : K.Ok C T N) (hn : n < N) (hk : k < K.m) (h0 : n % T ≠ 0)
    (h : SInv C K T n k dir w l) : Legal C w (K.op T n k) ∧ ∃ l', SInv C K T n (k + 1) dir (w.next C (K.op T n k)) l' := by
  have hT := hK.pos
  have hm : 0 < K.m := by omega
  have hsteps := hK.steps
  have hmT := Nat.mod_lt n hT
  have hnT : n = n / T * T + n % T := div_mod_of_div hT
  have hlen : l.pieces.length = (n / T + 1) * K.m := by rw [h.len, if_neg h0]
  have hop : K.op T n k = .append (n :: K.lo k) (K.slice n k) := if_neg h0
  obtain ⟨l1, l2⟩ := hK.len k hk
  obtain ⟨ha, hsh⟩ := hK.arr n hn k hk
  have hidx : n / T * K.m + k < l.pieces.length := by rw [hlen, Nat.add_mul]; omega
  obtain ⟨p, hp⟩ : ∃ p, l.pieces[n / T * K.m + k]? = some p := ⟨_, List.getElem?_eq_getElem hidx⟩
  have hdiv : (n / T * K.m + k) / K.m = n / T := by
    rw [Nat.mul_comm, Nat.mul_add_div hm, Nat.div_eq_of_lt hk, Nat.add_zero]
  have hmod : (n / T * K.m + k) % K.m = k := by
    rw [Nat.mul_comm, Nat.mul_add_mod, Nat.mod_eq_of_lt hk]
  have hpa := h.get _ p hp
  rw [hdiv, hmod, if_neg (by omega)] at hpa
  have hstop : p.stop = n :: K.hi k := by
    rw [hpa.stop, Nat.add_mul]
    congr 1
    omega
  have hstart : p.start.set 0 (p.stop.getD 0 0) = n :: K.lo k := by rw [hpa.start, hstop]; rfl
  have hstop' : p.stop.set 0 (p.stop.getD 0 0 + (K.slice n k).shape.getD 0 0) = (n + 1) :: K.hi k := by rw [hstop, hsh]; rfl
  have hqle : ∀ j p', l.pieces[j]? = some p' → j / K.m ≤ n / T := by
    intro j p' e
    have hlt := lt_of_get? e
    rw [hlen] at hlt
    have := Nat.div_lt_of_lt_mul (show j < K.m * (n / T + 1) by rw [Nat.mul_comm]; exact hlt)
    omega
  -- the other chunks are elsewhere
  have hother : ∀ j p', l.pieces[j]? = some p' → j ≠ n / T * K.m + k → j % K.m ≠ k ∨ j / K.m < n / T := by
    intro j p' e hne
    by_cases hc : j % K.m = k
    · right
      have h1 := hqle j p' e
      rcases Nat.lt_or_ge (j / K.m) (n / T) with hh | hh
      · exact hh
      · exfalso
        apply hne
        have := div_mod_of_div (j := j) hm
        rw [show j / K.m = n / T by omega, hc] at this
        exact this
    · exact Or.inl hc
  have hdisj : ∀ j p', l.pieces[j]? = some p' → j ≠ n / T * K.m + k → DisjointBox p'.start p'.stop p.start ((n + 1) :: K.hi k) := by
    intro j p' e hne
    have hp' := h.get j p' e
    rw [hp'.start, hp'.stop, hpa.start]
    rcases hother j p' e hne with hc | hc
    · exact disjoint_cons_tail (hK.disj _ (Nat.mod_lt j hm) k hk hc)
    · apply disjoint_cons_head
      have : (j / K.m + 1) * T ≤ n / T * T := Nat.mul_le_mul_right _ hc
      omega
  have hfit : Fit C ((subVec p.stop p.start).set 0 ((subVec p.stop p.start).getD 0 0 + (K.slice n k).shape.getD 0 0)) := by
    rw [hstop, hpa.start, hsh, subVec_cons]
    have := hK.fit k hk (n - n / T * T + 1) (by omega) (by omega)
    simpa using this
  refine ⟨?_, ?_⟩
  · rw [hop]
    refine ⟨l, n / T * K.m + k, p, h.cur, ⟨hp, ?_, hpa.overlap, hstart.symm, ha, ?_, hfit, ?_, ?_⟩⟩
    · rw [hpa.file]
      exact (hK.uuid _ (by omega) k hk).1
    · rw [hsh, hstop, hpa.start, subVec_cons]; rfl
    · rw [hstop, hsh]
      show n + 1 < _
      omega
    · intro j p' e hne
      rw [hstop']
      exact hdisj j p' e hne
  · refine ⟨{ l with pieces := l.pieces.map fun p => if (n :: K.lo k) = p.start.set 0 (p.stop.getD 0 0) then p.extend C (K.slice n k) else p }, ⟨?_, h.dir, ?_, ?_, ?_⟩⟩
    · rw [hop]
      show (World.next C w _).cur = _
      unfold World.next
      rw [h.cur]
    · simp [h.next]
    · simp [hlen, h0]
    · intro j p' e
      simp only [List.getElem?_map] at e
      cases hg : l.pieces[j]? with
      | none => rw [hg] at e; cases e
      | some p0 =>
        rw [hg] at e
        simp only [Option.map_some, Option.some.injEq] at e
        have hp0 := h.get j p0 hg
        by_cases hj : j = n / T * K.m + k
        · subst hj
          rw [hp] at hg; cases hg
          rw [if_pos hstart.symm] at e
          rw [hdiv, hmod, if_pos (by omega)]
          subst e
          refine ⟨hpa.id, hpa.file, hpa.start, ?_, hpa.overlap, ?_⟩
          · show p.stop.set 0 _ = _
            rw [hstop', Nat.add_mul]
            congr 1
            omega
          · intro t i hb
            have hb' : InBox p.start ((n + 1) :: K.hi k) (t :: i) := by rw [← hstop']; exact hb
            rw [hpa.start] at hb'
            obtain ⟨ht, hi⟩ := inBox_cons.1 hb'
            show (if (t :: i).getD 0 0 < p.stop.getD 0 0 then p.val (t :: i) else elemOr ((K.slice n k).get C.vd (subVec (t :: i) (p.start.set 0 (p.stop.getD 0 0))))) = _
            rw [hstart, hstop]
            show (if t < n then _ else _) = _
            by_cases htn : t < n
            · rw [if_pos htn]
              apply hpa.val
              rw [hpa.start, hstop]
              exact inBox_cons.2 ⟨⟨ht.1, htn⟩, hi⟩
            · rw [if_neg htn]
              have : t = n := by omega
              subst this
              rw [subVec_cons, Nat.sub_self]
        · have hoth := hother j p0 hg hj
          have hne : ¬ ((n :: K.lo k) = p0.start.set 0 (p0.stop.getD 0 0)) := by
            rw [hp0.start, hp0.stop]
            intro he
            have he' : n :: K.lo k = (min ((j / K.m + 1) * T) (if j % K.m < k then n + 1 else n)) :: K.lo (j % K.m) := he
            injection he' with e1 e2
            rcases hoth with hc | hc
            · exact hK.lo_ne hk (Nat.mod_lt j hm) (fun e => hc e.symm) e2
            · have : (j / K.m + 1) * T ≤ n / T * T := Nat.mul_le_mul_right _ hc
              omega
          rw [if_neg hne] at e
          subst e
          by_cases hc : j % K.m = k
          · rw [if_neg (by omega)] at hp0
            rw [if_pos (by omega)]
            have hlt : j / K.m < n / T := hoth.resolve_left (fun h => h hc)
            have : (j / K.m + 1) * T ≤ n / T * T := Nat.mul_le_mul_right _ hlt
            exact ⟨hp0.id, hp0.file, hp0.start, by rw [hp0.stop]; congr 1; omega, hp0.overlap, hp0.val⟩
          · have : (if j % K.m < k + 1 then n + 1 else n) = (if j % K.m < k then n + 1 else n) := by
              by_cases h1 : j % K.m < k
              · rw [if_pos h1, if_pos (by omega)]
              · rw [if_neg h1, if_neg (by omega)]
            rw [this]; exact hp0

theorem sinv_one {n k dir : Nat} {w : World} {l : LibSpec} (hK : K.Ok C T N) (hn : n < N) (hk : k < K.m) (h : SInv C K T n k dir w l) :
    Legal C w (K.op T n k) ∧ ∃ l', SInv C K T n (k + 1) dir (w.next C (K.op T n k)) l' := by
  by_cases h0 : n % T = 0
  · exact sinv_register hK hn hk h0 h
  · exact sinv_append hK hn hk h0 h

theorem sinv_row {n dir : Nat} (hK : K.Ok C T N) (hn : n < N) {w : World} {l : LibSpec} (h : SInv C K T n 0 dir w l) : ∀ k, k ≤ K.m →
    AllLegal C w (K.row T n k) ∧ ∃ l', SInv C K T n k dir (w.run C (K.row T n k)) l'
  | 0, _ => ⟨trivial, l, h⟩
  | k + 1, hk => by
      obtain ⟨h1, l1, h2⟩ := sinv_row hK hn h k (by omega)
      obtain ⟨h3, l2, h4⟩ := sinv_one hK hn (by omega) h2
      have e : K.row T n (k + 1) = K.row T n k ++ [K.op T n k] := by
        unfold Cols.row; rw [List.range_succ, List.map_append]; rfl
      rw [e, AllLegal.append, World.run_append]
      exact ⟨⟨h1, h3, trivial⟩, l2, h4⟩

/-- After the last box of time index `n` the next time index begins. -/
theorem sinv_next {n dir : Nat} (hK : K.Ok C T N) {w : World} {l : LibSpec} (h : SInv C K T n K.m dir w l) : SInv C K T (n + 1) 0 dir w l := by
  have hT := hK.pos
  have hmT := Nat.mod_lt n hT
  refine ⟨h.cur, h.dir, h.next, ?_, ?_⟩
  · have hl : l.pieces.length = (n / T + 1) * K.m := by
      rw [h.len, Nat.add_mul]
      split <;> omega
    rw [hl]
    have hnT : n = n / T * T + n % T := div_mod_of_div hT
    by_cases h0 : (n + 1) % T = 0
    · rw [if_pos h0]
      have hlast : n % T + 1 = T := by
        rcases Nat.lt_or_ge (n % T + 1) T with hh | hh
        · exfalso
          have : (n + 1) % T = n % T + 1 := by
            have : n + 1 = n % T + 1 + n / T * T := by omega
            rw [this, Nat.add_mul_mod_self_right, Nat.mod_eq_of_lt hh]
          omega
        · omega
      have : (n + 1) / T = n / T + 1 := by
        have e : n + 1 = (n / T + 1) * T := by rw [Nat.add_mul]; omega
        rw [e, Nat.mul_div_cancel _ hT]
      rw [this]; rfl
    · rw [if_neg h0]
      have hlt : n % T + 1 < T := by
        rcases Nat.lt_or_ge (n % T + 1) T with hh | hh
        · exact hh
        · exfalso; apply h0
          have e : n + 1 = (n / T + 1) * T := by rw [Nat.add_mul]; omega
          rw [e, Nat.mul_mod_left]
      have : (n + 1) / T = n / T := by
        have e : n + 1 = n % T + 1 + n / T * T := by omega
        rw [e, Nat.add_mul_div_right _ _ hT, Nat.div_eq_of_lt hlt, Nat.zero_add]
      rw [this]
  · intro j p e
    have hp := h.get j p e
    have hm : 0 < K.m := by
      have hlt := lt_of_get? e
      rw [h.len] at hlt
      rcases Nat.eq_zero_or_pos K.m with h0 | h0
      · rw [h0] at hlt; simp at hlt
      · exact h0
    rw [if_pos (Nat.mod_lt j hm)] at hp
    rw [if_neg (by omega)]
    exact hp

theorem sinv_all {dir : Nat} {w : World} {l : LibSpec} (hK : K.Ok C T N) (h : SInv C K T 0 0 dir w l) : ∀ n, n ≤ N →
    AllLegal C w (K.all T n) ∧ ∃ l', SInv C K T n 0 dir (w.run C (K.all T n)) l'
  | 0, _ => ⟨trivial, l, h⟩
  | n + 1, hn => by
      obtain ⟨h1, l1, h2⟩ := sinv_all hK h n (by omega)
      obtain ⟨h3, l2, h4⟩ := sinv_row hK hn h2 K.m (Nat.le_refl _)
      show AllLegal C w (K.all T n ++ K.row T n K.m) ∧ ∃ l', SInv C K T (n + 1) 0 dir (w.run C (K.all T n ++ K.row T n K.m)) l'
      rw [AllLegal.append, World.run_append]
      exact ⟨⟨h1, h3⟩, l2, sinv_next hK h4⟩

end Verif.Meep
