import Verif.Dist.Props29
/-!
C29 stated of the library itself (its list of chunk records, its counter and what it reads), not of the specification.
-/
namespace Verif.Dist
open Verif Verif.ND Verif.Tree Verif.Bytes Verif.Stream Verif.NullSup
variable {C : Cfg} {S : Sorter} {Z : SlabSize}

/-- **C29 (part), the records of the library.**  After any allowed history in which no library is reopened, the records the
    library lists have different identifiers and different files, and a chunk that is registered next - whatever its region,
    name and type - gets an identifier that none of them has.

    Missing from the full property: after reopening, the counter starts at 0 again (`C29_reopened_library_mixes_chunks`). -/
theorem C29_library_records_partial (C : Cfg) (hC : C.Ok) (S : Sorter) (Z : SlabSize) (fs : FS) (hfs : ∀ d, fs (d, .index) = none)
    (ops : List LOp) (hops : AllLegal C (World.init fs) ops) (hopen : OpensNew C (World.init fs) ops) :
    ∃ st rs, MState.run C S ⟨none, fs⟩ ops = .ok (st, rs) ∧ ∀ lib, st.lib = some lib →
      ∃ ms, lib.idx.all = .ok ms ∧ (ms.map Meta.id).Nodup ∧
        (∀ (i j : Nat) m m', ms[i]? = some m → ms[j]? = some m' → i ≠ j → m.path ≠ [] → m.path ≠ m'.path) ∧
        ∀ uuid start shape overlap ct r, lib.idx.register S uuid start shape overlap ct = .ok r → ∀ m ∈ ms, m.id ≠ r.2.id := by
  obtain ⟨st, rs, h1, _, h3⟩ := runW_ok (S := S) (Z := Z) hC ops (WInv.init hfs) hops
  refine ⟨st, rs, h1, fun lib hlib => ?_⟩
  cases hcur : ((World.init fs).run C ops).cur with
  | none => rw [h3.closed hcur] at hlib; cases hlib
  | some l =>
    obtain ⟨lib', cs, a1, a2, a3, a4, a5, a6, a7, a8⟩ := h3.opened l hcur
    rw [hlib] at a1; cases a1
    obtain ⟨b1, b2⟩ := C29_identifiers_fresh_partial C ops _ hops hopen (fun l e => by cases e) l hcur
    refine ⟨cs.map Prod.fst, a2.idx.all_ok, ?_, ?_, ?_⟩
    · have := a2.chunky.ids
      rw [List.map_map]; exact this
    · intro i j m m' hi hj hij hne heq
      rw [List.getElem?_map] at hi hj
      obtain ⟨c, hc, rfl⟩ := Option.map_eq_some_iff.1 hi
      obtain ⟨c', hc', rfl⟩ := Option.map_eq_some_iff.1 hj
      have k1 := chunksOf_of_mem a2.chunky.ids (List.mem_of_getElem? hc)
      have k2 := chunksOf_of_mem a2.chunky.ids (List.mem_of_getElem? hc')
      have := a2.chunky.ok.inj _ _ _ _ _ _ k1 k2 hne heq
      have hnd := a2.chunky.ids
      have g1 : (cs.map (·.1.id))[i]? = some c.1.id := by rw [List.getElem?_map, hc]; rfl
      have g2 : (cs.map (·.1.id))[j]? = some c'.1.id := by rw [List.getElem?_map, hc']; rfl
      rw [← this] at g2
      exact hij ((List.getElem?_inj (lt_of_get? g1) hnd).1 (g1.trans g2.symm))
    · intro uuid start shape overlap ct r hr m hm heq
      have hid : r.2.id = lib.idx.nextId := by
        unfold Index.register at hr
        obtain ⟨x', _, hx⟩ := Res.bind_eq_ok.1 hr
        cases hx; rfl
      obtain ⟨c, hc, rfl⟩ := List.mem_map.1 hm
      obtain ⟨p, hp, hrep⟩ := a3.leftMem hc
      have := b1 p hp
      rw [hid, a4, hrep.id] at heq
      omega

/-- What registering needs apart from an unused identifier: an admissible array of the right shape, a box that no other chunk
    overlaps, a file name no other chunk has. -/
structure MayRegister (C : Cfg) (l : LibSpec) (uuid : List Nat) (a : Arr) (start stop : List Nat) (overlap : Nat) (opt : Bool) : Prop where
  arr : a.Ok C
  startLen : start.length = C.dims
  stopLen : stop.length = C.dims
  lt : ∀ d < C.dims, start.getD d 0 < stop.getD d 0 ∧ stop.getD d 0 < 2 ^ 62
  ovl : overlap < 2 ^ 61
  shape : a.shape = (subVec stop start).map (· + 2 * overlap)
  disj : ∀ p ∈ l.pieces, DisjointBox p.start p.stop start stop
  uuid : uuid ≠ [] ∧ uuid.length < 2 ^ 64 ∧ ∀ p ∈ l.pieces, p.file ≠ uuid
  pad : opt = true → a.null = true → overlap = 0 ∨ (C.size = 0 ∧ Fit C (subVec stop start))
  next : l.next + 1 < 2 ^ 64

/-- **C29 (part), what is read.**  After any allowed history in which no library is reopened, registering a chunk over an
    unoccupied region never fails for lack of a fresh identifier, and afterwards every element that could be read before
    reads the same.

    Missing from the full property: libraries that were reopened (`C29_reopened_library_mixes_chunks`). -/
theorem C29_register_changes_no_chunk_partial (C : Cfg) (hC : C.Ok) (S : Sorter) (Z : SlabSize) (fs : FS) (hfs : ∀ d, fs (d, .index) = none)
    (ops : List LOp) (hops : AllLegal C (World.init fs) ops) (hopen : OpensNew C (World.init fs) ops)
    (l : LibSpec) (hl : ((World.init fs).run C ops).cur = some l)
    (uuid : List Nat) (a : Arr) (start stop : List Nat) (overlap : Nat) (opt : Bool) (hr : MayRegister C l uuid a start stop overlap opt) :
    AllLegal C (World.init fs) (ops ++ [.register uuid a start stop overlap opt]) ∧
    ∀ p ∈ l.pieces, p.Plain → ∀ i, InBox p.start p.stop i → ∃ v v', readsAfter C S fs ops i v ∧
      readsAfter C S fs (ops ++ [.register uuid a start stop overlap opt]) i v' ∧ VEq v v' := by
  obtain ⟨b1, b2⟩ := C29_identifiers_fresh_partial C ops _ hops hopen (fun l e => by cases e) l hl
  have hleg : AllLegal C (World.init fs) (ops ++ [.register uuid a start stop overlap opt]) := by
    rw [AllLegal.append]
    refine ⟨hops, ⟨l, hl, ?_⟩, trivial⟩
    exact ⟨hr.arr, hr.startLen, hr.stopLen, hr.lt, hr.ovl, hr.shape, hr.disj, hr.uuid, hr.pad,
      fun p hp => Nat.ne_of_lt (b1 p hp), hr.next⟩
  refine ⟨hleg, fun p hp hpl i hi => ?_⟩
  obtain ⟨v, g1, g2⟩ := reads_ok hC S Z hfs hops hl hp hpl hi
  have hcur : ∃ l', ((World.init fs).run C (ops ++ [.register uuid a start stop overlap opt])).cur = some l' ∧ p ∈ l'.pieces := by
    rw [World.run_append]
    show ∃ l', (World.next C _ _).cur = some l' ∧ p ∈ l'.pieces
    unfold World.next
    rw [hl]
    exact ⟨_, rfl, List.mem_append_left _ hp⟩
  obtain ⟨l', hl', hp'⟩ := hcur
  obtain ⟨v', g3, g4⟩ := reads_ok hC S Z hfs hleg hl' hp' hpl hi
  exact ⟨v, v', g1, g3, g2.symm.trans g4⟩

/-- The first six calls of the example history (a chunk in a file, a zero chunk, a slice) meet the hypotheses; two records are listed. -/
example : ∃ st rs lib ms, MState.run (Ex.cfg 1) Tree.Ex.S ⟨none, fun _ => none⟩ (Ex.hist.take 6) = .ok (st, rs) ∧ st.lib = some lib ∧ lib.idx.all = .ok ms ∧
    ms.length = 2 ∧ (ms.map Meta.id).Nodup := by
  obtain ⟨st, rs, h1, h2⟩ := C29_library_records_partial (Ex.cfg 1) (Ex.cfg_ok 1) Tree.Ex.S Tree.Ex.Z _ (fun _ => rfl) (Ex.hist.take 6) (Ex.hist_take 6)
    ⟨rfl, trivial, trivial, trivial, trivial, trivial, trivial⟩
  obtain ⟨st', rs', lib, lib₁, fs₁, lib₂, ms, e1, e2, e3, e4, e5, e6, e7, _⟩ :=
    C28_flush_reopen_partial (Ex.cfg 1) (Ex.cfg_ok 1) Tree.Ex.S Tree.Ex.Z _ (fun _ => rfl) (Ex.hist.take 6) (Ex.hist_take 6) _ rfl (by decide) [1, 1]
  rw [h1] at e1; cases e1
  obtain ⟨ms', g1, g2, _⟩ := h2 lib e2
  refine ⟨st, rs, lib, ms', h1, e2, g1, ?_, g2⟩
  have k : (lib.idx.all.bind fun ms => .ok ms.length : Res Nat) = .ok 2 := by
    have k1 : ((MState.run (Ex.cfg 1) Tree.Ex.S ⟨none, fun _ => none⟩ (Ex.hist.take 6)).bind fun r =>
      match r.1.lib with | some lib => lib.idx.all.bind fun ms => .ok ms.length | none => .ub : Res Nat) = .ok 2 := by decide +kernel
    rw [h1] at k1
    simpa only [Res.ok_bind, e2] using k1
  rw [g1, Res.ok_bind] at k
  exact Res.ok.inj k

/-- Registering a further chunk at (10, 0) after these calls: the element at (2, 1) of the slice reads the same. -/
example : ∃ v v', readsAfter (Ex.cfg 1) Tree.Ex.S (fun _ => none) (Ex.hist.take 6) [2, 1] v ∧
    readsAfter (Ex.cfg 1) Tree.Ex.S (fun _ => none) (Ex.hist.take 6 ++ [.register [70] Ex.a0 [10, 0] [12, 2] 0 false]) [2, 1] v' ∧ VEq v v' := by
  have hr := Ex.canRegister (size := 1) (l := (((World.init fun _ => none).run (Ex.cfg 1) (Ex.hist.take 6)).cur).getD ⟨0, 0, []⟩) (uuid := [70])
    (n := 2) (m := 2) (x := 10) (y := 0) (b := Ex.a0.buf) (opt := false) (by decide) (by decide) rfl (by decide) (by decide) (by decide) (by decide) (fun p hp => by
      rcases List.mem_cons.1 hp with rfl | hp
      · exact ⟨⟨0, by decide, Or.inl (by decide)⟩, by decide, by decide⟩
      · rcases List.mem_cons.1 hp with rfl | hp
        · exact ⟨⟨0, by decide, Or.inl (by decide)⟩, by decide, by decide⟩
        · cases hp) (by decide)
  exact (C29_register_changes_no_chunk_partial (Ex.cfg 1) (Ex.cfg_ok 1) Tree.Ex.S Tree.Ex.Z _ (fun _ => rfl) (Ex.hist.take 6) (Ex.hist_take 6)
    ⟨rfl, trivial, trivial, trivial, trivial, trivial, trivial⟩ _ rfl [70] Ex.a0 [10, 0] [12, 2] 0 false
    ⟨hr.arr, hr.startLen, hr.stopLen, hr.lt, hr.ovl, hr.shape, hr.disj, hr.uuid, hr.pad, hr.next⟩).2 _
    List.mem_cons_self (fun _ => rfl) [2, 1] (Ex.inBox2 (n := 3) (m := 2) (by decide) (by decide))

end Verif.Dist
