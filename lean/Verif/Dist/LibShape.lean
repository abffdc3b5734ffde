import Verif.Dist.LibInv
import Mathlib.Data.List.Perm.Subperm
/-
The cached shape of the index.
-/
namespace Verif.Dist
open Verif Verif.ND Verif.Tree Verif.Bytes

variable {C : Cfg} {S : Sorter} {Z : SlabSize}

theorem numberElements_eq {d : Nat} {lo hi : List Nat} (h : IsBox d lo hi) : numberElements (vsub hi lo) = (elemLoop lo hi).length % 2 ^ 64 := by
  obtain ⟨l1, l2, h3⟩ := h
  rw [C01_number_of_calls lo hi (by omega)]
  have e1 : vsub hi lo = List.zipWith (fun x y => y - x) lo hi := by
    apply vec_ext
    · simp [vsub, l1, l2]
    · intro i hi
      have hi' : i < d := by simpa [vsub, l1, l2] using hi
      rw [vsub, Tree.getD_zipWith (by omega) (by omega), Tree.getD_zipWith (by omega) (by omega),
        wsub_eq (h3 i hi').1 (h3 i hi').2]
  unfold numberElements
  have := foldl_mulmod (List.zipWith (fun x y => y - x) lo hi) 1
  rw [e1, show (1 : Nat) = 1 % U64 from rfl, this, Nat.one_mul]; rfl

theorem foldl_wadd {ms : List Meta} : ∀ (f : Meta → Nat) (a : Nat), (ms.foldl (fun n m => wadd n (f m)) (a % U64)) = (a + (ms.map f).sum) % U64 := by
  induction ms with
  | nil => intro f a; simp
  | cons m ms ih =>
    intro f a
    rw [List.foldl_cons, List.map_cons, List.sum_cons]
    have : wadd (a % U64) (f m) = (a + f m) % U64 := by unfold wadd; rw [Nat.mod_add_mod]
    rw [this, ih, Nat.add_assoc]

/-- All indices covered by the chunks. -/
def cover (ms : List Meta) : List (List Nat) := ms.flatMap fun m => elemLoop m.start m.stop

theorem mem_cover {ms : List Meta} {i : List Nat} : i ∈ cover ms ↔ ∃ m ∈ ms, InBox m.start m.stop i := by
  unfold cover
  rw [List.mem_flatMap]
  simp only [mem_elemLoop]

theorem cover_nodup {ms : List Meta} (h : ms.Pairwise fun m m' => DisjointBox m.start m.stop m'.start m'.stop) : (cover ms).Nodup := by
  unfold cover
  unfold List.Nodup
  rw [List.pairwise_flatMap]
  refine ⟨fun m _ => elemLoop_nodup _ _, h.imp fun {m m'} hd i hi j hj e => ?_⟩
  subst e
  exact hd i ⟨mem_elemLoop.1 hi, mem_elemLoop.1 hj⟩

theorem le_sum {x : Nat} : ∀ {l : List Nat}, x ∈ l → x ≤ l.sum
  | y :: l, h => by
      rw [List.sum_cons]
      rcases List.mem_cons.1 h with rfl | h
      · omega
      · have := le_sum h; omega

theorem cover_length {ms : List Meta} : (cover ms).length = (ms.map fun m => (elemLoop m.start m.stop).length).sum := by
  unfold cover; rw [List.length_flatMap]

/-- Disjoint chunks inside a box fill it if and only if they have as many elements. -/
theorem cover_full {ms : List Meta} {lo hi : List Nat} (h : ms.Pairwise fun m m' => DisjointBox m.start m.stop m'.start m'.stop)
    (hin : ∀ m ∈ ms, ∀ i, InBox m.start m.stop i → InBox lo hi i) :
    (cover ms).length ≤ (elemLoop lo hi).length ∧ ((cover ms).length = (elemLoop lo hi).length ↔ ∀ i, InBox lo hi i → ∃ m ∈ ms, InBox m.start m.stop i) := by
  have hsub : cover ms ⊆ elemLoop lo hi := fun i hi' => by
    obtain ⟨m, hm, hb⟩ := mem_cover.1 hi'
    exact mem_elemLoop.2 (hin m hm i hb)
  have hsp := (cover_nodup h).subperm hsub
  refine ⟨hsp.length_le, fun he i hb => ?_, fun ht => ?_⟩
  · have := hsp.perm_of_length_le (by omega)
    exact mem_cover.1 (this.mem_iff.2 (mem_elemLoop.2 hb))
  · have h2 : elemLoop lo hi ⊆ cover ms := fun i hi' => mem_cover.2 (ht i (mem_elemLoop.1 hi'))
    have := ((elemLoop_nodup lo hi).subperm h2).length_le
    have := hsp.length_le
    omega

theorem isEmpty_iff (hC : C.Ok) {x : Index} {ms : List Meta} (h : IdxInv C S Z x ms) : Tree.isEmpty x.tree = true ↔ ms = [] := by
  obtain ⟨h1, h2⟩ := h.reach.wf hC.dims
  have hlen := h.len
  unfold Tree.isEmpty
  constructor
  · intro hr
    rw [Option.isNone_iff_eq_none] at hr
    by_contra hne
    obtain ⟨r, n, hr', _⟩ := (h2.inv (h.ne hne)).top
    rw [hr] at hr'; cases hr'
  · intro hms
    subst hms
    have hent : x.tree.entries = [] := List.length_eq_zero_iff.1 hlen
    rcases h2.shape with ⟨hr, _⟩ | hi
    · rw [hr]; rfl
    · exfalso
      obtain ⟨r, n, hr, hn, _⟩ := hi.top
      have hm := List.mem_of_getElem? hn
      have hle := hi.core.tight rfl (Box.mk' (List.replicate C.dims (2 ^ 64)) (List.replicate C.dims 0)) (fun e he => by rw [hent] at he; cases he) n hm
      have hG := (hi.core.nodeG n hm).2
      rw [h1] at hG hle
      have h3 := hG.2.2 0 hC.dims
      have h4 := (hle 0 hC.dims).1
      have h5 : (Box.mk' (List.replicate C.dims (2 ^ 64)) (List.replicate C.dims 0)).start.getD 0 0 = 2 ^ 64 := by
        show (List.replicate C.dims (2 ^ 64)).getD 0 0 = _
        rw [List.getD_eq_getElem?_getD, List.getElem?_replicate, if_pos hC.dims]; rfl
      omega

/-- The smallest box that contains all chunks. -/
structure Hull (dims : Nat) (ms : List Meta) (lo hi : List Nat) : Prop where
  box : IsBox dims lo hi
  encl : ∀ m ∈ ms, BoxLe m.start m.stop lo hi
  least : ∀ lo' hi', (∀ m ∈ ms, BoxLe m.start m.stop lo' hi') → BoxLe lo hi lo' hi'

theorem Hull.inBox {dims : Nat} {ms : List Meta} {lo hi : List Nat} (h : Hull dims ms lo hi) (hb : ∀ m ∈ ms, IsBox dims m.start m.stop) {m : Meta} (hm : m ∈ ms) {i : List Nat}
    (hi' : InBox m.start m.stop i) : InBox lo hi i := by
  obtain ⟨l1, l2, _⟩ := h.box
  obtain ⟨l3, l4, _⟩ := hb m hm
  have e := h.encl m hm
  refine ⟨by rw [hi'.1]; omega, by rw [hi'.1]; omega, fun d hd => ?_⟩
  have h1 := hi'.2.2 d hd
  have h2 := e d (by rw [← hi'.1]; exact hd)
  omega

theorem calc_empty (hC : C.Ok) {x : Index} (h : IdxInv C S Z x []) :
    ∃ y, x.calc C = .ok y ∧ y = { x with start := List.replicate C.dims 0, stop := List.replicate C.dims 0, shape := List.replicate C.dims 0, valid := true } := by
  refine ⟨_, ?_, rfl⟩
  unfold Index.calc
  rw [if_pos ((isEmpty_iff hC h).2 rfl)]

theorem calc_ok (hC : C.Ok) {x : Index} {ms : List Meta} (h : IdxInv C S Z x ms) (hd : ms.Pairwise fun m m' => DisjointBox m.start m.stop m'.start m'.stop) (hne : ms ≠ []) :
    ∃ lo hi sh, x.calc C = .ok { x with start := lo, stop := hi, shape := sh, valid := true } ∧ Hull C.dims ms lo hi ∧
      ((elemLoop lo hi).length < 2 ^ 64 →
        ((∀ i, InBox lo hi i → ∃ m ∈ ms, InBox m.start m.stop i) → sh = subVec hi lo) ∧
        ((¬ ∀ i, InBox lo hi i → ∃ m ∈ ms, InBox m.start m.stop i) → sh = List.replicate C.dims 0)) := by
  obtain ⟨b, e1, e2, e3, e4⟩ := C25_bounding_box hC.dims h.reach (h.ne hne)
  have hull : Hull C.dims ms b.start b.stop := by
    refine ⟨e2, fun m hm => ?_, fun lo' hi' hh => e4 lo' hi' fun e he => ?_⟩
    · obtain ⟨i, hi, rfl⟩ := List.getElem_of_mem hm
      have := h.ents i
      rw [List.getElem?_eq_getElem hi] at this
      have := e3 _ (List.mem_of_getElem? this)
      exact this
    · obtain ⟨i, hi, rfl⟩ := List.getElem_of_mem he
      have h1 := h.ents i
      rw [List.getElem?_eq_getElem hi] at h1
      cases hm : ms[i]? with
      | none => rw [hm] at h1; cases h1
      | some m =>
        rw [hm] at h1
        simp only [Option.map_some, Option.some.injEq] at h1
        rw [h1]
        exact hh m (List.mem_of_getElem? hm)
  refine ⟨b.start, b.stop, if ms.foldl (fun n m => wadd n (numberElements (vsub m.stop m.start))) 0 = numberElements (vsub b.stop b.start) then vsub b.stop b.start
    else List.replicate C.dims 0, ?_, hull, ?_⟩
  · unfold Index.calc
    rw [if_neg (fun he => hne ((isEmpty_iff hC h).1 he)), e1]
    simp only [Res.ok_bind]
    rw [h.all_ok]
    simp only [Res.ok_bind]
  · intro hs
    obtain ⟨c1, c2⟩ := cover_full hd (lo := b.start) (hi := b.stop) (fun m hm i hi => hull.inBox h.box hm hi)
    have hsum : ms.foldl (fun n m => wadd n (numberElements (vsub m.stop m.start))) 0 = (cover ms).length := by
      have := foldl_wadd (ms := ms) (fun m => numberElements (vsub m.stop m.start)) 0
      rw [Nat.zero_mod] at this
      rw [this, Nat.zero_add]
      have e5 : (ms.map fun m => numberElements (vsub m.stop m.start)) = ms.map fun m => (elemLoop m.start m.stop).length := by
        apply List.map_congr_left
        intro m hm
        rw [numberElements_eq (h.box m hm), Nat.mod_eq_of_lt]
        have hle : (elemLoop m.start m.stop).length ≤ (cover ms).length := by
          rw [cover_length]
          exact le_sum (List.mem_map.2 ⟨m, hm, rfl⟩)
        omega
      rw [e5, ← cover_length, Nat.mod_eq_of_lt]
      have hU : U64 = 2 ^ 64 := rfl
      omega
    rw [hsum, numberElements_eq e2, Nat.mod_eq_of_lt hs]
    constructor
    · intro ht
      rw [if_pos (c2.2 ht)]
      exact vsub_eq (fun d hdd => (e2.2.2 d (by have := e2.2.1; omega)).1) (by rw [e2.1, e2.2.1]) (fun y hy => by
        obtain ⟨d, hdd, rfl⟩ := List.getElem_of_mem hy
        have a2 := (e2.2.2 d (by have := e2.2.1; omega)).2
        rw [List.getD_eq_getElem?_getD, List.getElem?_eq_getElem hdd, Option.getD_some] at a2
        exact a2)
    · intro ht
      rw [if_neg (fun e => ht (c2.1 e))]

/-! ### The cached values -/

theorem calc_congr {x y : Index} (h1 : y.tree = x.tree) (h2 : y.heap = x.heap) {z : Index} (h : x.calc C = .ok z) :
    ∃ z', y.calc C = .ok z' ∧ z'.start = z.start ∧ z'.stop = z.stop ∧ z'.shape = z.shape := by
  unfold Index.calc at h ⊢
  rw [h1]
  split at h
  · rename_i he
    rw [if_pos he]
    cases h; exact ⟨_, rfl, rfl, rfl, rfl⟩
  · rename_i he
    rw [if_neg he]
    obtain ⟨b, e1, h⟩ := Res.bind_eq_ok.1 h
    obtain ⟨ms, e2, h⟩ := Res.bind_eq_ok.1 h
    have e3 : y.all = .ok ms := by unfold Index.all at e2 ⊢; rw [h1, h2]; exact e2
    rw [e1]
    simp only [Res.ok_bind]
    rw [e3]
    cases h; exact ⟨_, rfl, rfl, rfl, rfl⟩

/-- What the shape queries return. -/
structure ShapeOf (C : Cfg) (ms : List Meta) (start stop shape : List Nat) : Prop where
  none : ms = [] → start = List.replicate C.dims 0 ∧ stop = List.replicate C.dims 0 ∧ shape = List.replicate C.dims 0
  hull : ms ≠ [] → Hull C.dims ms start stop
  shape : ms ≠ [] → (elemLoop start stop).length < 2 ^ 64 →
    ((∀ i, InBox start stop i → ∃ m ∈ ms, InBox m.start m.stop i) → shape = subVec stop start) ∧
    ((¬ ∀ i, InBox start stop i → ∃ m ∈ ms, InBox m.start m.stop i) → shape = List.replicate C.dims 0)

theorem calc_shape (hC : C.Ok) {x : Index} {ms : List Meta} (h : IdxInv C S Z x ms) (hd : ms.Pairwise fun m m' => DisjointBox m.start m.stop m'.start m'.stop) :
    ∃ y, x.calc C = .ok y ∧ ShapeOf C ms y.start y.stop y.shape ∧ y.tree = x.tree ∧ y.heap = x.heap ∧ y.nextId = x.nextId ∧ y.dir = x.dir ∧ y.valid = true := by
  by_cases hne : ms = []
  · subst hne
    obtain ⟨y, e1, rfl⟩ := calc_empty hC h
    exact ⟨_, e1, ⟨fun _ => ⟨rfl, rfl, rfl⟩, fun h => absurd rfl h, fun h => absurd rfl h⟩, rfl, rfl, rfl, rfl, rfl⟩
  · obtain ⟨lo, hi, sh, e1, e2, e3⟩ := calc_ok hC h hd hne
    exact ⟨_, e1, ⟨fun h => absurd h hne, fun _ => e2, fun _ => e3⟩, rfl, rfl, rfl, rfl, rfl⟩

theorem disj_metas {cs : List (Meta × Arr)} (h : Disj cs) : (cs.map Prod.fst).Pairwise fun m m' => DisjointBox m.start m.stop m'.start m'.stop := by
  rw [List.pairwise_map]; exact h

theorem ensure_ok (hC : C.Ok) {lib : Lib} {fs : FS} {cs : List (Meta × Arr)} (h : LInv C S Z lib fs cs) :
    ∃ x, lib.idx.ensure C = .ok x ∧ LInv C S Z ⟨lib.cc, x⟩ fs cs ∧ x.nextId = lib.idx.nextId ∧ x.dir = lib.idx.dir ∧
      ShapeOf C (cs.map Prod.fst) x.start x.stop x.shape := by
  obtain ⟨y, e1, e2, e3, e4, e5, e6, e7⟩ := calc_shape hC h.idx (disj_metas h.chunky.disj)
  unfold Index.ensure
  split
  · rename_i hv
    obtain ⟨z, g1, g2, g3, g4⟩ := h.valid hv
    rw [e1] at g1; cases g1
    exact ⟨_, rfl, h, rfl, rfl, by rw [← g2, ← g3, ← g4]; exact e2⟩
  · refine ⟨y, e1, ⟨h.chunky, h.idx.congr e4 e3, h.dir.trans e6.symm, h.cache, fun _ => ?_⟩, e5, e6, e2⟩
    exact calc_congr e3 e4 e1

end Verif.Dist
