import Verif.Meep.Save
/-
Proofs about the saving callback.
-/
namespace Verif.Meep
open Verif Verif.ND Verif.Dist Verif.Tree Verif.Ops

/-! ### Buffers -/

theorem prod_le_pow {L : Nat} : ∀ {e : List Nat}, (∀ x ∈ e, x ≤ L) → prod e ≤ L ^ e.length
  | [], _ => by simp [prod]
  | x :: e, h => by
      rw [prod, List.length_cons, Nat.pow_succ, Nat.mul_comm]
      exact Nat.mul_le_mul (prod_le_pow fun y hy => h y (by simp [hy])) (h x (by simp))

theorem prod_mono : ∀ {a b : List Nat}, a.length = b.length → (∀ d < a.length, a.getD d 0 ≤ b.getD d 0) → prod a ≤ prod b
  | [], [], _, _ => Nat.le_refl _
  | [], _ :: _, h, _ => by cases h
  | _ :: _, [], h, _ => by cases h
  | x :: a, y :: b, hl, h => by
      rw [prod, prod]
      refine Nat.mul_le_mul (by simpa using h 0 (by simp)) (prod_mono (by simpa using hl) fun d hd => ?_)
      simpa using h (d + 1) (by simpa using hd)

/-- A buffer is determined by the elements of the array. -/
theorem buf_ext {vd : Nat} (hvd : 0 < vd) {α : Type} {P : List Nat} {a b : List α} (ha : a.length = volume vd P) (hb : b.length = volume vd P)
    (h : ∀ i, ValidInd P i → read vd (mkHdr vd P) a i = read vd (mkHdr vd P) b i) : a = b := by
  apply List.ext_getElem?
  intro x
  by_cases hx : x < volume vd P
  · rw [volume_eq, Nat.mul_comm] at hx
    obtain ⟨i, hi, he⟩ := lin_surj P (x / vd) (Nat.div_lt_of_lt_mul hx)
    have hr := h i hi
    rw [read_own ha hi, read_own hb hi, he] at hr
    injection hr with hr
    have hm := Nat.div_add_mod x vd
    have hlt := Nat.mod_lt x hvd
    have := congrArg (fun l => l[x % vd]?) hr
    simp only [List.getElem?_take, if_pos hlt, List.getElem?_drop] at this
    rwa [hm] at this
  · rw [List.getElem?_eq_none (by omega), List.getElem?_eq_none (by omega)]

/-! ### Boxes -/

theorem inBox_shift {s lo hi j : List Nat} (h1 : lo.length = s.length) (h2 : hi.length = s.length) :
    InBox (addVec s lo) (addVec s hi) j ↔ j.length = s.length ∧ (∀ d < s.length, s.getD d 0 ≤ j.getD d 0) ∧ InBox lo hi (subVec j s) := by
  unfold InBox
  rw [addVec_length (by omega), addVec_length (by omega)]
  constructor
  · rintro ⟨a, b, c⟩
    have hk : ∀ d < s.length, s.getD d 0 + lo.getD d 0 ≤ j.getD d 0 ∧ j.getD d 0 < s.getD d 0 + hi.getD d 0 := by
      intro d hd
      have := c d (by omega)
      rwa [getD_addVec (by omega), getD_addVec (by omega)] at this
    refine ⟨a, fun d hd => by have := hk d hd; omega, by rw [length_subVec a]; omega, by rw [length_subVec a]; omega, fun d hd => ?_⟩
    rw [length_subVec a] at hd
    rw [getD_subVec (by omega)]
    have := hk d (by omega)
    omega
  · rintro ⟨a, b, c, d, e⟩
    refine ⟨a, a, fun k hk => ?_⟩
    rw [getD_addVec (by omega), getD_addVec (by omega)]
    have h3 := e k (by rw [length_subVec a]; omega)
    rw [getD_subVec (by omega)] at h3
    have := b k (by omega)
    omega

/-! ### One simulation chunk at one step -/

/-- First coarse index of the part, and the one behind the last. -/
def sLo (ds : List Nat) (c : SimChunk) : List Nat := ceilVec c.start ds
def sHi (ds : List Nat) (c : SimChunk) : List Nat := ceilVec (addVec c.start c.shape) ds
def pShape (ds : List Nat) (c : SimChunk) : List Nat := subVec (sHi ds c) (sLo ds c)

theorem isCeil_unique {a b c c' : Nat} (h : IsCeil a b c) (h' : IsCeil a b c') : c = c' :=
  Nat.le_antisymm (h.2 _ h'.1) (h'.2 _ h.1)

variable {C : Cfg} {S : Sorter} {Z : SlabSize} {T L : Nat} {ds : List Nat} {uuid : Nat → Nat → Nat → List Nat} {cs : List SimChunk} {fld : Nat → Nat → List Nat} {N : Nat}

theorem SimOk.dsOk (h : SimOk C T L ds uuid cs fld N) {n : Nat} (hn : n < N) {c : SimChunk} (hc : c ∈ cs) :
    DsOk (n :: c.start) (1 :: c.shape) (1 :: ds) := by
  obtain ⟨h1, h2⟩ := h.args c hc
  have hs := h.steps
  refine ⟨⟨by simp [h2.len.1], by simp [h2.len.2]⟩, ?_, ?_, ?_⟩
  · intro d hd
    cases d with
    | zero => exact Nat.one_pos
    | succ d => simpa using h2.pos d (by simpa using hd)
  · intro d hd
    cases d with
    | zero => show n + 1 + 1 < _; omega
    | succ d => simpa using h2.fits d (by simpa using hd)
  · intro d hd
    cases d with
    | zero => show 0 < n + 1; omega
    | succ d => simpa using h2.ends d (by simpa using hd)

/-- What the coarse indices of a part are. -/
theorem SimOk.coarse (h : SimOk C T L ds uuid cs fld N) {c : SimChunk} (hc : c ∈ cs) :
    (sLo ds c).length = ds.length ∧ (sHi ds c).length = ds.length ∧ (pShape ds c).length = ds.length ∧ LeVec (sLo ds c) (sHi ds c) ∧
    SameElements c.start (addVec c.start c.shape) (sLo ds c) (sHi ds c) ds ∧ (∀ d < ds.length, (sHi ds c).getD d 0 < 2 ^ 62) ∧
    (∀ d < ds.length, (pShape ds c).getD d 0 ≤ c.shape.getD d 0) := by
  obtain ⟨h1, h2⟩ := h.args c hc
  obtain ⟨l1, l2⟩ := h2.len
  have ls : c.start.length = ds.length := by omega
  have la : (addVec c.start c.shape).length = ds.length := by rw [addVec_length l1]; omega
  have c1 : (sLo ds c).length = ds.length := length_ceilVec ls
  have c2 : (sHi ds c).length = ds.length := length_ceilVec la
  have hle : LeVec (sLo ds c) (sHi ds c) := by
    refine ⟨by omega, fun d hd => ?_⟩
    unfold sLo sHi
    rw [getD_ceilVec ls (by omega), getD_ceilVec la (by omega), getD_addVec (by omega)]
    exact ceil_mono (h2.pos d (by omega)) (by omega)
  refine ⟨c1, c2, by unfold pShape; rw [length_subVec (by omega)]; exact c2, hle, same_ceil ls la h2.pos', ?_, ?_⟩
  · intro d hd
    unfold sHi
    rw [getD_ceilVec la hd, getD_addVec (by omega)]
    have := ceil_small (a := c.start.getD d 0 + c.shape.getD d 0) (h2.pos d (by omega))
    have := h.lt c hc d hd
    omega
  · intro d hd
    unfold pShape
    rw [getD_subVec (by omega)]
    unfold sLo sHi
    rw [getD_ceilVec ls hd, getD_ceilVec la hd, getD_addVec (by omega)]
    have hp := h2.pos d (by omega)
    have h3 := (ceil_isCeil (a := c.start.getD d 0) hp).1
    have h4 : (c.start.getD d 0 + c.shape.getD d 0 + ds.getD d 0 - 1) / ds.getD d 0 ≤ (c.start.getD d 0 + ds.getD d 0 - 1) / ds.getD d 0 + c.shape.getD d 0 := by
      rw [ceil_le_iff hp, Nat.add_mul]
      have : c.shape.getD d 0 * 1 ≤ c.shape.getD d 0 * ds.getD d 0 := Nat.mul_le_mul_left _ hp
      omega
    omega

/-- The downsampled array, if the buffer was empty before. -/
def procOf (C : Cfg) (ds : List Nat) (n : Nat) (c : SimChunk) (f : List Nat) : List Nat :=
  match downsample C.vd (mkHdr C.vd (1 :: c.shape)) f (n :: c.start) (1 :: ds) (mkHdr C.vd []) [] C.junk with
  | .ok r => r.1.2
  | _ => []

/-- Downsampling in the callback: shape, position and elements of the result; the previous contents of the buffer do not matter. -/
theorem SimOk.down (hC : C.Ok) (h : SimOk C T L ds uuid cs fld N) {n : Nat} (hn : n < N) {r : Nat} {c : SimChunk} (hr : cs[r]? = some c) :
    (∀ (a : Arr), downsample C.vd (mkHdr C.vd (1 :: c.shape)) (fld n r) (n :: c.start) (1 :: ds) (a.hdr C.vd) a.buf C.junk =
      .ok ((mkHdr C.vd (1 :: pShape ds c), procOf C ds n c (fld n r)), n :: sLo ds c)) ∧
    getDownsampledShape (n :: c.start) (1 :: c.shape) (1 :: ds) = .ok (1 :: pShape ds c) ∧
    (procOf C ds n c (fld n r)).length = volume C.vd (1 :: pShape ds c) ∧
    ∀ j, InBox (sLo ds c) (sHi ds c) j →
      ∃ v, read C.vd (mkHdr C.vd (1 :: pShape ds c)) (procOf C ds n c (fld n r)) (0 :: subVec j (sLo ds c)) = .ok v ∧
        read C.vd (mkHdr C.vd (1 :: c.shape)) (fld n r) (0 :: subVec (onFine j ds) c.start) = .ok v ∧
        ValidInd c.shape (subVec (onFine j ds) c.start) := by
  have hc : c ∈ cs := List.mem_of_getElem? hr
  have hok := h.dsOk hn hc
  obtain ⟨d1, d2⟩ := h.args c hc
  obtain ⟨l1, l2⟩ := d2.len
  obtain ⟨f1, f2⟩ := h.data n hn r c hr
  obtain ⟨c1, c2, c3, c4, c5, c6, c7⟩ := h.coarse hc
  have hP : Small (1 :: c.shape) := by
    intro x hx
    rcases List.mem_cons.1 hx with rfl | hx
    · decide
    · obtain ⟨d, hd, rfl⟩ := List.getElem_of_mem hx
      have := h.lt c hc d (by omega)
      rw [show c.shape.getD d 0 = c.shape[d] from by rw [List.getD_eq_getElem?_getD, List.getElem?_eq_getElem hd]; rfl] at this
      omega
  -- shape and position of every result
  have key : ∀ (a : Arr), ∃ out, downsample C.vd (mkHdr C.vd (1 :: c.shape)) (fld n r) (n :: c.start) (1 :: ds) (a.hdr C.vd) a.buf C.junk =
      .ok ((mkHdr C.vd (1 :: pShape ds c), out), n :: sLo ds c) ∧ getDownsampledShape (n :: c.start) (1 :: c.shape) (1 :: ds) = .ok (1 :: pShape ds c) ∧
      IsDown C.vd (mkHdr C.vd (1 :: c.shape)) (fld n r) (n :: c.start) (1 :: ds) (n :: sLo ds c) (1 :: pShape ds c) out := by
    intro a
    obtain ⟨s', sh, out, e1, e2, e3⟩ := C34_downsample C.vd (1 :: c.shape) _ (mkHdr C.vd (1 :: c.shape)) hP ViewOf.own (fld n r) f1 (n :: c.start) (1 :: ds) hok a.shape a.buf C.junk
    have ls : c.start.length = ds.length := by omega
    have la : (addVec c.start c.shape).length = ds.length := by rw [addVec_length l1]; omega
    have hs' : s' = n :: sLo ds c := by
      apply vec_ext
      · rw [e3.lens.1]; simp [c1]
      · intro d hd
        rw [e3.lens.1] at hd
        refine isCeil_unique (e3.first d hd) ?_
        cases d with
        | zero => exact ⟨by simp, fun k hk => by simpa using hk⟩
        | succ d =>
          simp only [List.getD_cons_succ]
          unfold sLo
          rw [getD_ceilVec ls (by simpa using hd)]
          exact ceil_isCeil (d2.pos d (by simp at hd; omega))
    have hsh : sh = 1 :: pShape ds c := by
      apply vec_ext
      · rw [e3.lens.2.1]; simp [c3]
      · intro d hd
        rw [e3.lens.2.1] at hd
        have hl := e3.last d hd
        rw [hs'] at hl
        have hl2 : IsCeil ((n :: c.start).getD d 0 + (1 :: c.shape).getD d 0) ((1 :: ds).getD d 0) ((n :: sLo ds c).getD d 0 + (1 :: pShape ds c).getD d 0) := by
          cases d with
          | zero => exact ⟨by simp, fun k hk => by simpa using hk⟩
          | succ d =>
            simp only [List.getD_cons_succ]
            have hd' : d < ds.length := by simpa using hd
            have hle := c4.2 d (by omega)
            have : (sLo ds c).getD d 0 + (pShape ds c).getD d 0 = (sHi ds c).getD d 0 := by
              unfold pShape
              rw [getD_subVec (by omega)]; omega
            rw [this]
            unfold sHi
            rw [getD_ceilVec la hd', getD_addVec (by omega)]
            exact ceil_isCeil (d2.pos d (by omega))
        have := isCeil_unique hl hl2
        omega
    rw [hs', hsh] at e3 e1
    rw [hsh] at e2
    exact ⟨out, e1, e2, e3⟩
  obtain ⟨out0, k1, k2, k3⟩ := key ⟨[], []⟩
  have hp : procOf C ds n c (fld n r) = out0 := by
    unfold procOf
    have : (Arr.hdr C.vd ⟨[], []⟩) = mkHdr C.vd [] := rfl
    rw [this] at k1
    simp only at k1
    rw [k1]
  have elem : ∀ out, IsDown C.vd (mkHdr C.vd (1 :: c.shape)) (fld n r) (n :: c.start) (1 :: ds) (n :: sLo ds c) (1 :: pShape ds c) out →
      ∀ j, InBox (sLo ds c) (sHi ds c) j →
      ∃ v, read C.vd (mkHdr C.vd (1 :: pShape ds c)) out (0 :: subVec j (sLo ds c)) = .ok v ∧
        read C.vd (mkHdr C.vd (1 :: c.shape)) (fld n r) (0 :: subVec (onFine j ds) c.start) = .ok v ∧ ValidInd c.shape (subVec (onFine j ds) c.start) := by
    intro out ho j hj
    have hb : InBox (n :: sLo ds c) (addVec (n :: sLo ds c) (1 :: pShape ds c)) (n :: j) := by
      show InBox (n :: sLo ds c) ((n + 1) :: addVec (sLo ds c) (pShape ds c)) (n :: j)
      unfold pShape
      rw [addVec_subVec c4]
      exact inBox_cons.2 ⟨⟨Nat.le_refl _, Nat.lt_succ_self n⟩, hj⟩
    obtain ⟨v, e1, e2, e3⟩ := ho.elems _ hb
    rw [subVec_cons, Nat.sub_self] at e1
    have hf : subVec (onFine (n :: j) (1 :: ds)) (n :: c.start) = 0 :: subVec (onFine j ds) c.start := by
      show subVec ((n * 1) :: onFine j ds) (n :: c.start) = _
      rw [Nat.mul_one, subVec_cons, Nat.sub_self]
    rw [hf] at e2 e3
    exact ⟨v, e1, e2, (validInd_cons.1 e3).2⟩
  refine ⟨fun a => ?_, k2, by rw [hp]; exact k3.lens.2.2, by rw [hp]; exact elem out0 k3⟩
  obtain ⟨out, e1, e2, e3⟩ := key a
  rw [e1, hp]
  congr 3
  apply buf_ext hC.vd e3.lens.2.2 k3.lens.2.2
  intro i hi
  obtain ⟨i0, is, rfl, h0, h1⟩ := validInd_cons_left.1 hi
  have : i0 = 0 := by omega
  subst this
  have hb := inBox_ext (by omega) h1
  obtain ⟨v, a1, a2, _⟩ := elem out e3 _ hb
  obtain ⟨w, b1, b2, _⟩ := elem out0 k3 _ hb
  have hsub : subVec (addVec (sLo ds c) is) (sLo ds c) = is := by
    have hil : is.length = ds.length := by rw [h1.1]; exact c3
    apply vec_ext
    · rw [length_subVec (by rw [addVec_length (by omega)]), addVec_length (by omega)]; omega
    · intro d hd
      rw [getD_subVec (by rw [addVec_length (by omega)]), getD_addVec (by omega)]; omega
  rw [hsub] at a1 b1
  rw [a1, b1]
  rw [a2] at b2
  exact b2

/-! ### The boxes of one simulation chunk -/

/-- The boxes into which the downsampled part is cut; none if it is empty. -/
def boxesOf (L : Nat) (ds : List Nat) (c : SimChunk) : List (List Nat × List Nat) :=
  if numElems (1 :: pShape ds c) = 0 then []
  else (chunkLoop (fuelFor (1 :: pShape ds c)) ((1 :: pShape ds c).map fun _ => 0) (1 :: pShape ds c) ((1 :: pShape ds c).map fun _ => L)).getD []

/-- A box: it starts at time 0 and has length 1 in time. -/
structure BoxIn (L : Nat) (ds : List Nat) (c : SimChunk) (b : List Nat × List Nat) (lo hi : List Nat) : Prop where
  fst : b.1 = 0 :: lo
  snd : b.2 = 1 :: hi
  loLen : lo.length = ds.length
  hiLen : hi.length = ds.length
  box : ∀ d < ds.length, lo.getD d 0 < hi.getD d 0 ∧ hi.getD d 0 ≤ (pShape ds c).getD d 0 ∧ hi.getD d 0 ≤ lo.getD d 0 + L

theorem SimOk.boxes (h : SimOk C T L ds uuid cs fld N) {c : SimChunk} (hc : c ∈ cs) :
    (∀ b ∈ boxesOf L ds c, BoxIn L ds c b b.1.tail b.2.tail) ∧
    (∀ i, ValidInd (pShape ds c) i ↔ ∃ b ∈ boxesOf L ds c, InBox b.1.tail b.2.tail i) ∧
    (boxesOf L ds c).Pairwise (fun p q => DisjointBox p.1.tail p.2.tail q.1.tail q.2.tail) ∧
    (boxesOf L ds c).length ≤ numElems c.shape ∧
    (numElems (1 :: pShape ds c) ≠ 0 →
      chunkLoop (fuelFor (1 :: pShape ds c)) ((1 :: pShape ds c).map fun _ => 0) (1 :: pShape ds c) ((1 :: pShape ds c).map fun _ => L) = some (boxesOf L ds c)) := by
  obtain ⟨c1, c2, c3, c4, c5, c6, c7⟩ := h.coarse hc
  have hps : ∀ d < ds.length, (pShape ds c).getD d 0 < 2 ^ 62 := by
    intro d hd
    have := c6 d hd
    unfold pShape
    rw [getD_subVec (by omega)]; omega
  by_cases h0 : numElems (1 :: pShape ds c) = 0
  · have hb : boxesOf L ds c = [] := if_pos h0
    rw [hb]
    refine ⟨by simp, ?_, List.Pairwise.nil, by simp, fun hne => absurd h0 hne⟩
    intro i
    constructor
    · intro hi
      exfalso
      have := lin_lt hi
      rw [numElems_eq, prod] at h0
      omega
    · rintro ⟨b, hb, _⟩; cases hb
  · have hsafe : Safe ((1 :: pShape ds c).map fun _ => 0) (1 :: pShape ds c) ((1 :: pShape ds c).map fun _ => L) := by
      have hall : ∀ (l : List Nat), (∀ x ∈ l, x < 2 ^ 62) → Safe (l.map fun _ => 0) l (l.map fun _ => L) := by
        intro l
        induction l with
        | nil => intro _; trivial
        | cons x l ih =>
          intro hx
          have h1 := hx x (by simp)
          have h2 := h.vol.2.2.1
          exact ⟨Or.inr ⟨h.posL, Or.inl (by show x + L ≤ 2 ^ 64; omega)⟩, ih fun y hy => hx y (by simp [hy])⟩
      apply hall
      intro x hx
      rcases List.mem_cons.1 hx with rfl | hx
      · decide
      · obtain ⟨d, hd, rfl⟩ := List.getElem_of_mem hx
        have := hps d (by omega)
        rwa [show (pShape ds c).getD d 0 = (pShape ds c)[d] from by rw [List.getD_eq_getElem?_getD, List.getElem?_eq_getElem hd]; rfl] at this
    obtain ⟨boxes, b1, b2, b3, b4⟩ := C02_chunk_loop_partitions _ _ _ hsafe
    have e1 := b1 (fuelFor (1 :: pShape ds c)) lt_fuelFor
    have hbx : boxesOf L ds c = boxes := by
      unfold boxesOf
      rw [if_neg h0, e1]; rfl
    rw [hbx]
    have hin : ∀ b ∈ boxes, BoxIn L ds c b b.1.tail b.2.tail := by
      intro b hb
      obtain ⟨k1, k2, k3⟩ := b2 b hb
      obtain ⟨lo, hi⟩ := b
      simp only at k1 k2 k3
      rw [List.length_map, List.length_cons] at k1 k2 k3
      cases lo with
      | nil => cases k1
      | cons l0 lo =>
        cases hi with
        | nil => cases k2
        | cons h0 hi =>
          simp only [List.length_cons] at k1 k2
          have hz := k3 0 (by omega)
          simp only [List.map_cons, List.getD_cons_zero] at hz
          refine ⟨by simp only [List.tail_cons]; congr 1; omega, by simp only [List.tail_cons]; congr 1; omega, by simp only [List.tail_cons]; omega, by simp only [List.tail_cons]; omega, ?_⟩
          intro d hd
          have hz := k3 (d + 1) (by omega)
          simp only [List.getD_cons_succ, List.map_cons] at hz
          rw [getD_mapN (f := fun _ => L) (by omega)] at hz
          simp only [List.tail_cons]
          obtain ⟨z1, z2, z3, z4⟩ := hz
          omega
    have hcons : ∀ b ∈ boxes, ∀ i, InBox b.1 b.2 (0 :: i) ↔ InBox b.1.tail b.2.tail i := by
      intro b hb i
      have := hin b hb
      rw [this.fst, this.snd, inBox_cons]
      simp
    have hval : ∀ i, ValidInd (pShape ds c) i ↔ ∃ b ∈ boxes, InBox b.1.tail b.2.tail i := by
      intro i
      have := b3 (0 :: i)
      rw [inBox_zero_iff, validInd_cons] at this
      simp only [Nat.zero_lt_one, true_and] at this
      rw [this]
      constructor
      · rintro ⟨b, hb, hi⟩; exact ⟨b, hb, (hcons b hb i).1 hi⟩
      · rintro ⟨b, hb, hi⟩; exact ⟨b, hb, (hcons b hb i).2 hi⟩
    have hdis : boxes.Pairwise (fun p q => DisjointBox p.1.tail p.2.tail q.1.tail q.2.tail) := by
      refine b4.imp_of_mem (fun {p q} hp hq hd => ?_)
      intro i hi
      exact hd (0 :: i) ⟨(hcons p hp i).2 hi.1, (hcons q hq i).2 hi.2⟩
    have hself : ∀ b ∈ boxes, InBox b.1.tail b.2.tail b.1.tail := by
      intro b hb
      have := hin b hb
      exact lo_inBox (by rw [this.hiLen, this.loLen]) (fun d hd => (this.box d (by rw [← this.loLen]; exact hd)).1)
    refine ⟨hin, hval, hdis, ?_, fun _ => e1⟩
    have hnd : (boxes.map fun b => b.1.tail).Nodup := by
      unfold List.Nodup
      rw [List.pairwise_map]
      refine hdis.imp_of_mem (fun {p q} hp hq hd he => ?_)
      refine hd p.1.tail ⟨hself p hp, ?_⟩
      rw [he]; exact hself q hq
    have hsub : (boxes.map fun b => b.1.tail) ⊆ elemLoop ((pShape ds c).map fun _ => 0) (pShape ds c) := by
      intro x hx
      obtain ⟨b, hb, rfl⟩ := List.mem_map.1 hx
      rw [mem_elemLoop, inBox_zero_iff]
      exact (hval _).2 ⟨b, hb, hself b hb⟩
    have hle := (hnd.subperm hsub).length_le
    rw [List.length_map] at hle
    have hn : (elemLoop ((pShape ds c).map fun _ => 0) (pShape ds c)).length = prod (pShape ds c) := by
      rw [C01_number_of_calls _ _ (by simp)]
      generalize pShape ds c = l
      induction l with
      | nil => rfl
      | cons x l ih =>
        simp only [List.map_cons, List.zipWith_cons_cons, List.foldr_cons, prod]
        rw [ih]; simp
    have hpm : prod (pShape ds c) ≤ prod c.shape := prod_mono (by rw [c3, (h.args c hc).1]) (fun d hd => c7 d (by omega))
    rw [numElems_eq]
    omega

/-! ### One box at one step -/

/-- The slice that is handed to the library. -/
def sliceOf (C : Cfg) (proc : Arr) (b : List Nat × List Nat) : Arr :=
  ⟨subVec b.2 b.1, match fillFrom C.vd (mkHdr C.vd (subVec b.2 b.1)) (List.replicate (volume C.vd (subVec b.2 b.1)) 0) (proc.hdr C.vd) proc.buf b.1 b.2 (b.1.map fun _ => 0) with
    | .ok d => d
    | _ => []⟩

theorem addVec_zero_left {l k : List Nat} (h : k.length = l.length) : addVec (l.map fun _ => 0) k = k := by
  apply vec_ext
  · rw [addVec_length (by simp [h])]; simp [h]
  · intro d hd
    rw [addVec_length (by simp [h])] at hd
    simp at hd
    rw [getD_addVec (by simp [h]), getD_mapN (f := fun _ => 0) hd]
    omega

/-- Cutting one box out of the downsampled array: the result does not depend on what was in the buffer before. -/
theorem SimOk.slice (hC : C.Ok) (h : SimOk C T L ds uuid cs fld N) {n : Nat} (hn : n < N) {r : Nat} {c : SimChunk} (hr : cs[r]? = some c)
    {b : List Nat × List Nat} (hb : b ∈ boxesOf L ds c) (proc : Arr) (hp : proc = ⟨1 :: pShape ds c, procOf C ds n c (fld n r)⟩) :
    (∀ dst : List Nat, dst.length = volume C.vd (subVec b.2 b.1) →
      fillFrom C.vd (mkHdr C.vd (subVec b.2 b.1)) dst (proc.hdr C.vd) proc.buf b.1 b.2 (b.1.map fun _ => 0) = .ok (sliceOf C proc b).buf) ∧
    (sliceOf C proc b).buf.length = volume C.vd (sliceOf C proc b).shape ∧
    (∀ i, InBox b.1.tail b.2.tail i → (sliceOf C proc b).get C.vd (0 :: subVec i b.1.tail) = proc.get C.vd (0 :: i)) := by
  have hc : c ∈ cs := List.mem_of_getElem? hr
  obtain ⟨c1, c2, c3, c4, c5, c6, c7⟩ := h.coarse hc
  obtain ⟨_, _, e3, _⟩ := h.down hC hn hr
  have hbi := (h.boxes hc).1 b hb
  have hps : ∀ d < ds.length, (pShape ds c).getD d 0 < 2 ^ 62 := by
    intro d hd
    have := c6 d hd
    unfold pShape
    rw [getD_subVec (by omega)]; omega
  have hbs : ∀ d < ds.length + 1, b.1.getD d 0 < b.2.getD d 0 ∧ b.2.getD d 0 ≤ (1 :: pShape ds c).getD d 0 := by
    intro d hd
    rw [hbi.fst, hbi.snd]
    cases d with
    | zero => exact ⟨Nat.one_pos, Nat.le_refl _⟩
    | succ d =>
      have := hbi.box d (by omega)
      simp only [List.getD_cons_succ]
      omega
  have hl1 : b.1.length = ds.length + 1 := by rw [hbi.fst]; simp [hbi.loLen]
  have hl2 : b.2.length = ds.length + 1 := by rw [hbi.snd]; simp [hbi.hiLen]
  have hls : (subVec b.2 b.1).length = ds.length + 1 := by rw [length_subVec (by omega)]; exact hl2
  have hsm1 : Small (1 :: pShape ds c) := by
    apply small_of_getD
    intro d hd
    cases d with
    | zero => show 1 < 2 ^ 64; decide
    | succ d => have := hps d (by simp [c3] at hd; exact hd); simp only [List.getD_cons_succ]; omega
  have hsm2 : Small (subVec b.2 b.1) := by
    apply small_of_getD
    intro d hd
    rw [hls] at hd
    rw [getD_subVec (by omega)]
    have := (hbs d hd).2
    have := hsm1.getD d
    have hU : U64 = 2 ^ 64 := rfl
    omega
  have hin : Fits b.1 (subVec b.2 b.1) (proc.hdr C.vd).shape := by
    rw [hp]
    refine ⟨by show b.1.length = (1 :: pShape ds c).length; simp [c3, hl1], by show _ = (1 :: pShape ds c).length; simp [c3, hls], fun d hd => ?_⟩
    have hd' : d < ds.length + 1 := by
      have : d < (1 :: pShape ds c).length := hd
      simpa [c3] using this
    have := hbs d hd'
    rw [getD_subVec (by omega)]
    show _ ∧ _ ≤ (1 :: pShape ds c).getD d 0
    omega
  have hout : Fits (b.1.map fun _ => 0) (subVec b.2 b.1) (mkHdr C.vd (subVec b.2 b.1)).shape := by
    refine ⟨by show _ = (subVec b.2 b.1).length; simp [hls, hl1], rfl, fun d hd => ?_⟩
    have hd' : d < ds.length + 1 := by
      have : d < (subVec b.2 b.1).length := hd
      omega
    have := hbs d hd'
    rw [getD_mapN (f := fun _ => 0) (by omega)]
    show _ ∧ _ ≤ (subVec b.2 b.1).getD d 0
    rw [getD_subVec (by omega)]
    omega
  have key : ∀ dst : List Nat, dst.length = volume C.vd (subVec b.2 b.1) →
      ∃ d', fillFrom C.vd (mkHdr C.vd (subVec b.2 b.1)) dst (proc.hdr C.vd) proc.buf b.1 b.2 (b.1.map fun _ => 0) = .ok d' ∧ d'.length = volume C.vd (subVec b.2 b.1) ∧
        ∀ k, ValidInd (subVec b.2 b.1) k → read C.vd (mkHdr C.vd (subVec b.2 b.1)) d' k = proc.get C.vd (addVec b.1 k) := by
    intro dst hd
    obtain ⟨d', f1, f2, f3, _⟩ := C05_fill_from C.vd (subVec b.2 b.1) _ (mkHdr C.vd (subVec b.2 b.1)) hsm2 ViewOf.own dst hd
      (1 :: pShape ds c) _ (proc.hdr C.vd) hsm1 (by rw [hp]; exact ViewOf.own) proc.buf (by rw [hp]; exact e3) b.1 b.2 (b.1.map fun _ => 0) (by omega) (by omega) hin hout
    refine ⟨d', f1, by omega, fun k hk => ?_⟩
    have := f3 k hk
    rw [addVec_zero_left (by rw [hk.1]; omega)] at this
    exact this
  obtain ⟨d0, k1, k2, k3⟩ := key (List.replicate (volume C.vd (subVec b.2 b.1)) 0) (by simp)
  have hs : (sliceOf C proc b).buf = d0 := by
    unfold sliceOf
    rw [k1]
  refine ⟨fun dst hd => ?_, by rw [hs]; exact k2, fun i hi => ?_⟩
  · obtain ⟨d', f1, f2, f3⟩ := key dst hd
    rw [f1, hs]
    congr 1
    apply buf_ext hC.vd f2 k2
    intro k hk
    rw [f3 k hk, k3 k hk]
  · obtain ⟨hv, hi2⟩ := valid_of_inBox hi
    have hsh : subVec b.2 b.1 = 1 :: subVec b.2.tail b.1.tail := by
      rw [hbi.fst, hbi.snd]; rfl
    have hk : ValidInd (subVec b.2 b.1) (0 :: subVec i b.1.tail) := by
      rw [hsh]
      exact validInd_cons.2 ⟨Nat.one_pos, hv⟩
    unfold Arr.get Arr.hdr
    rw [hs]
    show read C.vd (mkHdr C.vd (subVec b.2 b.1)) d0 _ = _
    rw [k3 _ hk]
    have : addVec b.1 (0 :: subVec i b.1.tail) = 0 :: i := by
      rw [hbi.fst]
      show (0 + 0) :: addVec b.1.tail (subVec i b.1.tail) = 0 :: i
      rw [← hi2]
    rw [this]
    rfl

end Verif.Meep
