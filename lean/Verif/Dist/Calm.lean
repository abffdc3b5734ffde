import Verif.Dist.Crash
/-
Which entries of the chunk cache have outstanding operations: no call gives an operation to a chunk it is not about.  For C78.
-/
namespace Verif.Dist
open Verif Verif.ND Verif.Tree Verif.Bytes Verif.Stream Verif.NullSup
open Verif.Cache (CRel keyGone)

variable {C : Cfg} {S : Sorter} {Z : SlabSize}

/-- The list a cache holds is determined by the cache. -/
theorem crel_mem {d : Nat} {c : Cache.Cache Nat Entry} {s s' : List (Nat × Entry)} (h : CRel d c s) (h' : CRel d c s') {k : Nat} {e : Entry} (hm : (k, e) ∈ s) :
    (k, e) ∈ s' := by
  have h1 : k ∈ s.map Prod.fst := List.mem_map.2 ⟨_, hm, rfl⟩
  have h2 := h.contains k
  rw [h'.contains k] at h2
  have h3 : k ∈ s'.map Prod.fst := by
    have := decide_eq_decide.1 h2
    exact this.2 h1
  obtain ⟨e', hm'⟩ := mem_of_key h3
  obtain ⟨r, g1, g2, _⟩ := h.get hm
  obtain ⟨r', g1', g2', _⟩ := h'.get hm'
  rw [g1] at g1'; cases g1'
  rw [g2] at g2'; subst g2'
  exact hm'

/-- The chunk `k` has no outstanding operation. -/
def Quiet (C : Cfg) (k : Nat) (c : Cache.Cache Nat Entry) : Prop := ∃ s, CRel (max 1 C.size) c s ∧ ∀ e, (k, e) ∈ s → e.stat = .nothing

/-- The chunk `k` gets no new outstanding operation. -/
def Calm (C : Cfg) (k : Nat) (c c' : Cache.Cache Nat Entry) : Prop :=
  ∀ s, CRel (max 1 C.size) c s → ∃ s', CRel (max 1 C.size) c' s' ∧ ∀ e, (k, e) ∈ s' → (k, e) ∈ s ∨ e.stat = .nothing

theorem Calm.refl {k : Nat} (c : Cache.Cache Nat Entry) : Calm C k c c := fun s h => ⟨s, h, fun _ he => .inl he⟩
theorem Calm.trans {k : Nat} {a b c : Cache.Cache Nat Entry} (h : Calm C k a b) (h' : Calm C k b c) : Calm C k a c := fun s hs => by
  obtain ⟨s1, h1, h2⟩ := h s hs
  obtain ⟨s2, h3, h4⟩ := h' s1 h1
  refine ⟨s2, h3, fun e he => ?_⟩
  rcases h4 e he with g | g
  · exact h2 e g
  · exact .inr g

theorem Quiet.calm {k : Nat} {c c' : Cache.Cache Nat Entry} (h : Quiet C k c) (h' : Calm C k c c') : Quiet C k c' := by
  obtain ⟨s, h1, h2⟩ := h
  obtain ⟨s', h3, h4⟩ := h' s h1
  refine ⟨s', h3, fun e he => ?_⟩
  rcases h4 e he with g | g
  · exact h2 e g
  · exact g

theorem evict_calm {k : Nat} {c : Cache.Cache Nat Entry} {j : Nat} {r : Cache.Cache Nat Entry × Nat} (h : Cache.evict c j = .ok r)
    {s : List (Nat × Entry)} (hs : CRel (max 1 C.size) c s) (hj : j ∈ s.map Prod.fst) :
    ∃ s', CRel (max 1 C.size) r.1 s' ∧ (∀ p ∈ s', p ∈ s) ∧ j ∉ s'.map Prod.fst := by
  have _ := k
  obtain ⟨e, he⟩ := mem_of_key hj
  obtain ⟨r', g1, _, g3⟩ := hs.evict he
  rw [h] at g1; cases g1
  exact ⟨_, g3, fun p hp => (keyGone_sub hp).1, Cache.keyGone_keys⟩

theorem makeRoom_calm {cc : CC} {fs : FS} {q : CC × FS} (h : makeRoom C cc fs = .ok q) {s : List (Nat × Entry)} (hs : CRel (max 1 C.size) cc.cache s) :
    ∃ s', CRel (max 1 C.size) q.1.cache s' ∧ (∀ p ∈ s', p ∈ s) ∧ s'.length < max 1 C.size := by
  unfold makeRoom at h
  rw [hs.hasFree] at h
  by_cases hl : s.length < max 1 C.size
  · rw [if_pos (by simpa using hl)] at h
    cases h; exact ⟨s, hs, fun _ hp => hp, hl⟩
  · rw [if_neg (by simpa using hl)] at h
    obtain ⟨r, h1, h⟩ := Res.bind_eq_ok.1 h
    obtain ⟨_, _, h⟩ := Res.bind_eq_ok.1 h
    cases h
    have hle := hs.le
    have hpos := hs.pos
    cases s with
    | nil => exact absurd hpos hl
    | cons p s =>
      obtain ⟨r', g1, _, g3⟩ := hs.evictOldest (by omega)
      rw [h1] at g1; cases g1
      exact ⟨s, g3, fun p hp => List.mem_cons_of_mem _ hp, by simp only [List.length_cons] at hle; omega⟩

theorem insert_calm {cc : CC} {fs : FS} {q : CC × FS} {j : Nat} {r : Cache.Cache Nat Entry × Nat} {e : Entry} (h : makeRoom C cc fs = .ok q)
    (h1 : Cache.insertRef q.1.cache j = .ok r) {s : List (Nat × Entry)} (hs : CRel (max 1 C.size) cc.cache s) (hj : j ∉ s.map Prod.fst) :
    ∃ s', CRel (max 1 C.size) (Cache.store r.1 r.2 e) s' ∧ ∀ p ∈ s', p ∈ s ∨ p = (j, e) := by
  obtain ⟨s1, g1, g2, g3⟩ := makeRoom_calm h hs
  obtain ⟨r', g4, g5⟩ := g1.insertRef (k := j) (fun hm => by
    obtain ⟨p, hp, rfl⟩ := List.mem_map.1 hm
    exact hj (List.mem_map.2 ⟨p, g2 p hp, rfl⟩)) g3
  rw [h1] at g4; cases g4
  refine ⟨_, g5 e, fun p hp => ?_⟩
  rcases List.mem_append.1 hp with g | g
  · exact .inl (g2 p g)
  · exact .inr (List.mem_singleton.1 g)

theorem insertInto_calm {cc : CC} {fs : FS} {m : Meta} {a : Arr} {st : Stat} {q : CC × FS} (h : insertInto C cc fs m a st = .ok q) {k : Nat} (hk : k ≠ m.id) :
    Calm C k cc.cache q.1.cache := fun s hs => by
  unfold insertInto at h
  obtain ⟨_, h0, h⟩ := Res.bind_eq_ok.1 h
  obtain ⟨_, h1, h⟩ := Res.bind_eq_ok.1 h
  obtain ⟨_, h2, h⟩ := Res.bind_eq_ok.1 h
  obtain ⟨_, _, h⟩ := Res.bind_eq_ok.1 h
  cases h
  rw [hs.contains] at h0
  have hj : m.id ∉ s.map Prod.fst := fun hm => by rw [decide_eq_true hm] at h0; cases h0
  obtain ⟨s', g1, g2⟩ := insert_calm h1 h2 hs hj
  refine ⟨s', g1, fun e he => ?_⟩
  rcases g2 _ he with g | g
  · exact .inl g
  · exact absurd (Prod.ext_iff.1 g).1 hk

theorem deserInto_calm {cc : CC} {fs : FS} {m : Meta} {q : CC × FS × Arr} (h : deserInto C cc fs m = .ok q) (hc : Cache.contains cc.cache m.id = false) (k : Nat) :
    Calm C k cc.cache q.1.cache := fun s hs => by
  unfold deserInto at h
  obtain ⟨_, h1, h⟩ := Res.bind_eq_ok.1 h
  obtain ⟨_, h2, h⟩ := Res.bind_eq_ok.1 h
  obtain ⟨_, _, h⟩ := Res.bind_eq_ok.1 h
  cases h
  rw [hs.contains] at hc
  obtain ⟨s', g1, g2⟩ := insert_calm h1 h2 hs (of_decide_eq_false hc)
  refine ⟨s', g1, fun e he => ?_⟩
  rcases g2 _ he with g | g
  · exact .inl g
  · have g' : e = _ := (Prod.ext_iff.1 g).2
    exact .inr (by rw [g'])

theorem evict_mem {c : Cache.Cache Nat Entry} {j : Nat} {r : Cache.Cache Nat Entry × Nat} (h : Cache.evict c j = .ok r) {s : List (Nat × Entry)}
    (hs : CRel (max 1 C.size) c s) : j ∈ s.map Prod.fst := by
  by_contra hn
  have hd := hs
  obtain ⟨hd1, f, o, hr⟩ := hd
  have h1 : s.find? (fun p => p.1 = j) = none := by
    rw [List.find?_eq_none]
    intro p hp hpj
    exact hn (List.mem_map.2 ⟨p, hp, of_decide_eq_true hpj⟩)
  rcases Cache.step_refines hr (.evict j) with ⟨c1, out, s1, out', f1, o1, g1, g2, _⟩ | ⟨g1, _⟩ | ⟨g1, _⟩
  · simp only [Cache.lruStep, h1] at g2; cases g2
  · simp only [Cache.step, h, Res.ok_bind] at g1; cases g1
  · simp only [Cache.step, h, Res.ok_bind] at g1; cases g1

theorem flushOne_calm {j : Nat} {q q' : CC × FS} (h : flushOne C j q = .ok q') (k : Nat) : Calm C k q.1.cache q'.1.cache := fun s hs => by
  unfold flushOne at h
  obtain ⟨r, h1, h⟩ := Res.bind_eq_ok.1 h
  obtain ⟨_, _, h⟩ := Res.bind_eq_ok.1 h
  cases h
  obtain ⟨s', g1, g2, _⟩ := evict_calm (k := k) h1 hs (evict_mem h1 hs)
  exact ⟨s', g1, fun e he => .inl (g2 _ he)⟩

theorem flushLoop_calm {ks : List Nat} {q q' : CC × FS} (h : runLoop (flushOne C) ks q = .ok q') (k : Nat) : Calm C k q.1.cache q'.1.cache :=
  runLoop_rel (R := fun a b => Calm C k a.1.cache b.1.cache) (fun _ => .refl _)
    (fun a b c (h : Calm C k a.1.cache b.1.cache) (h' : Calm C k b.1.cache c.1.cache) => h.trans h') (fun _ _ _ h => flushOne_calm h k) ks h

theorem flushIf_calm {cc : CC} {fs : FS} {q : CC × FS} (h : flushIfUncached C cc fs = .ok q) (k : Nat) : Calm C k cc.cache q.1.cache := by
  unfold flushIfUncached at h
  split at h
  · exact flushLoop_calm h k
  · cases h; exact .refl _

theorem registerNew_calm {cc : CC} {fs : FS} {m : Meta} {a : Arr} {q : CC × FS} (h : registerNew C cc fs m a = .ok q) {k : Nat} (hk : k ≠ m.id) :
    Calm C k cc.cache q.1.cache := by
  unfold registerNew at h
  obtain ⟨_, h1, h⟩ := Res.bind_eq_ok.1 h
  exact (insertInto_calm h1 hk).trans (flushIf_calm h k)

theorem retrieve_calm {cc : CC} {fs : FS} {m : Meta} {q : CC × FS × Arr} (h : retrieve C cc fs m = .ok q) (k : Nat) : Calm C k cc.cache q.1.cache := fun s hs => by
  unfold retrieve at h
  split at h
  · rename_i hc
    obtain ⟨r, h1, h⟩ := Res.bind_eq_ok.1 h
    rw [hs.contains] at hc
    obtain ⟨e0, he0⟩ := mem_of_key (of_decide_eq_true hc)
    obtain ⟨r', g1, g2, g3, g4⟩ := hs.get he0
    rw [h1] at g1; cases g1
    simp only at h
    split at h
    · obtain ⟨x, h2, h⟩ := Res.bind_eq_ok.1 h
      cases h
      refine ⟨_, g4 _, fun e he => ?_⟩
      rcases List.mem_append.1 he with g | g
      · exact .inl (keyGone_sub g).1
      · right
        have := List.mem_singleton.1 g
        have g' : e = _ := (Prod.ext_iff.1 this).2
        rw [g']
        unfold sync at h2
        split at h2
        · obtain ⟨_, _, h2⟩ := Res.bind_eq_ok.1 h2
          obtain ⟨_, h3, h2⟩ := Res.bind_eq_ok.1 h2
          cases h2
          by_cases h9 : (r.1.payload r.2).stat = .nothing
          · exact h9
          · rw [decide_eq_false h9] at h3; cases h3
        · split at h2
          · cases h2
          · split at h2
            · obtain ⟨_, _, h2⟩ := Res.bind_eq_ok.1 h2
              obtain ⟨_, _, h2⟩ := Res.bind_eq_ok.1 h2; cases h2; rfl
            · cases h2; rfl
    · cases h
      refine ⟨_, g3, fun e he => ?_⟩
      rcases List.mem_append.1 he with g | g
      · exact .inl (keyGone_sub g).1
      · rw [List.mem_singleton] at g
        obtain ⟨h5, h6⟩ := Prod.ext_iff.1 g
        simp only at h5 h6
        rw [h5, h6]; exact .inl he0
  · rename_i hc
    exact deserInto_calm h (by simpa using hc) k s hs

theorem appendChunk_calm {axis : Nat} {cc : CC} {fs : FS} {m : Meta} {a : Arr} {q : CC × FS × Meta} (h : appendChunk C axis cc fs m a = .ok q) {k : Nat} (hk : k ≠ m.id) :
    Calm C k cc.cache q.1.cache := by
  unfold appendChunk at h
  split at h
  · cases h
  · obtain ⟨q1, h1, h⟩ := Res.bind_eq_ok.1 h
    obtain ⟨q2, h2, h⟩ := Res.bind_eq_ok.1 h
    cases h
    refine Calm.trans ?_ (flushIf_calm h2 k)
    have hm' : k ≠ (m.grow axis (a.shape.getD axis 0)).id := hk
    split at h1
    · rename_i hc
      obtain ⟨r, h3, h1⟩ := Res.bind_eq_ok.1 h1
      intro s hs
      rw [hs.contains] at hc
      obtain ⟨e0, he0⟩ := mem_of_key (of_decide_eq_true hc)
      obtain ⟨r', g1, g2, g3, g4⟩ := hs.get he0
      rw [h3] at g1; cases g1
      have hput : ∀ v, ∃ s', CRel (max 1 C.size) (Cache.store r.1 r.2 v) s' ∧ ∀ e, (k, e) ∈ s' → (k, e) ∈ s ∨ e.stat = .nothing := fun v => by
        refine ⟨_, g4 v, fun e he => ?_⟩
        rcases List.mem_append.1 he with g | g
        · exact .inl (keyGone_sub g).1
        · rw [List.mem_singleton] at g
          exact absurd (Prod.ext_iff.1 g).1 hk
      simp only at h1
      split at h1
      · obtain ⟨r1, h4, h1⟩ := Res.bind_eq_ok.1 h1
        obtain ⟨s1, k1, k2, _⟩ := evict_calm (k := k) h4 g3 (evict_mem h4 g3)
        obtain ⟨s2, k3, k4⟩ := insertInto_calm h1 hm' s1 k1
        refine ⟨s2, k3, fun e he => ?_⟩
        rcases k4 e he with g | g
        · rcases List.mem_append.1 (k2 _ g) with g | g
          · exact .inl (keyGone_sub g).1
          · rw [List.mem_singleton] at g
            exact absurd (Prod.ext_iff.1 g).1 hk
        · exact .inr g
      · obtain ⟨_, _, h1⟩ := Res.bind_eq_ok.1 h1
        cases h1; exact hput _
      · obtain ⟨_, h4, h1⟩ := Res.bind_eq_ok.1 h1
        cases h1; exact hput _
    · exact insertInto_calm h1 hm'

/-! ### The calls of the library -/

theorem libRegister_calm {lib : Lib} {fs : FS} {uuid : List Nat} {a : Arr} {start stop : List Nat} {o : Nat} {opt : Bool} {q : Lib × FS}
    (h : lib.register C S fs uuid a start stop o opt = .ok q) {k : Nat} (hk : k ≠ lib.idx.nextId) : Calm C k lib.cc.cache q.1.cc.cache := by
  unfold Lib.register at h
  obtain ⟨_, _, h⟩ := Res.bind_eq_ok.1 h
  obtain ⟨_, _, h⟩ := Res.bind_eq_ok.1 h
  obtain ⟨r, h0, h⟩ := Res.bind_eq_ok.1 h
  obtain ⟨_, h1, h⟩ := Res.bind_eq_ok.1 h
  cases h
  refine registerNew_calm h1 ?_
  unfold Index.register at h0
  obtain ⟨_, _, h0⟩ := Res.bind_eq_ok.1 h0
  cases h0
  exact hk

theorem libGet_calm {lib : Lib} {fs : FS} {i : List Nat} {q : Lib × FS × List Nat} (h : lib.get C fs i = .ok q) (k : Nat) : Calm C k lib.cc.cache q.1.cc.cache := by
  unfold Lib.get at h
  obtain ⟨_, _, h⟩ := Res.bind_eq_ok.1 h
  split at h
  · cases h
  · obtain ⟨_, h1, h⟩ := Res.bind_eq_ok.1 h
    obtain ⟨_, _, h⟩ := Res.bind_eq_ok.1 h
    cases h; exact retrieve_calm h1 k

theorem libFill_calm {lib : Lib} {fs : FS} {hd : Hdr} {buf lo hi out : List Nat} {q : Lib × FS × List Nat} (h : lib.fillArray C fs hd buf lo hi out = .ok q) (k : Nat) :
    Calm C k lib.cc.cache q.1.cc.cache := by
  unfold Lib.fillArray at h
  obtain ⟨_, _, h⟩ := Res.bind_eq_ok.1 h
  obtain ⟨_, _, h⟩ := Res.bind_eq_ok.1 h
  obtain ⟨_, _, h⟩ := Res.bind_eq_ok.1 h
  obtain ⟨_, h1, h⟩ := Res.bind_eq_ok.1 h
  cases h
  refine runLoop_rel (R := fun a b => Calm C k a.1.cache b.1.cache) (fun _ => .refl _)
    (fun a b c (h : Calm C k a.1.cache b.1.cache) (h' : Calm C k b.1.cache c.1.cache) => h.trans h') (fun m s s' h => ?_) _ h1
  unfold fillOne at h
  simp only at h
  split at h
  · obtain ⟨_, _, h⟩ := Res.bind_eq_ok.1 h
    cases h; exact .refl _
  · obtain ⟨_, h2, h⟩ := Res.bind_eq_ok.1 h
    obtain ⟨_, _, h⟩ := Res.bind_eq_ok.1 h
    cases h; exact retrieve_calm h2 k

theorem libLoop_calm {lib : Lib} {fs : FS} {lo hi : List Nat} {q : Lib × FS × List (List Nat × List Nat)} (h : lib.indexLoopRange C fs lo hi = .ok q) (k : Nat) :
    Calm C k lib.cc.cache q.1.cc.cache := by
  unfold Lib.indexLoopRange at h
  obtain ⟨_, _, h⟩ := Res.bind_eq_ok.1 h
  obtain ⟨_, h1, h⟩ := Res.bind_eq_ok.1 h
  cases h
  refine runLoop_rel (R := fun a b => Calm C k a.1.cache b.1.cache) (fun _ => .refl _)
    (fun a b c (h : Calm C k a.1.cache b.1.cache) (h' : Calm C k b.1.cache c.1.cache) => h.trans h') (fun m s s' h => ?_) _ h1
  unfold loopOne at h
  obtain ⟨_, h2, h⟩ := Res.bind_eq_ok.1 h
  obtain ⟨_, _, h⟩ := Res.bind_eq_ok.1 h
  cases h; exact retrieve_calm h2 k

/-- Appending to the chunk with record `m`. -/
theorem libAppend_calm (hC : C.Ok) {lib : Lib} {fs : FS} {cs : List (Meta × Arr)} (h : LInv C S Z lib fs cs) {j : Nat} {m : Meta} {a v : Arr} {start : List Nat}
    (ha : AppOk C cs j m a start v) {q : Lib × FS} (hq : lib.append C 0 fs start v = .ok q) {k : Nat} (hk : k ≠ m.id) : Calm C k lib.cc.cache q.1.cc.cache := by
  have hU : U64 = 2 ^ 64 := rfl
  have kd := hC.dims
  have hmem : (m, a) ∈ cs := List.mem_of_getElem? ha.at_
  have hp : Placed C m a := h.chunky.placed _ hmem
  have h1 := hp.startLen
  have h3 := hp.stopLen
  have hpos := hp.pos 0 kd
  have hst := hp.getD_stop 0
  have hlt := hp.lt 0 kd
  let p := m.start.set 0 (m.stop.getD 0 0 - 1)
  have hpe : start.set 0 (wsub (start.getD 0 0) 1) = p := by
    rw [ha.start, getD_set0 (by omega), if_pos rfl, wsub_eq (by omega) (by omega), List.set_set]
  have hin : InBox m.start m.stop p := by
    refine ⟨by simp [p], by simp [p, h1, h3], fun d hd => ?_⟩
    have hd : d < C.dims := by simpa [p, h1] using hd
    rw [show p.getD d 0 = _ from getD_set0 (by omega) d]
    have := hp.pos d hd
    have := hp.getD_stop d
    split
    · rename_i e; subst e; omega
    · omega
  have ho := h.chunky.onlyAt ha.at_ hin
  have hmk : (cs.map Prod.fst)[j]? = some m := by rw [List.getElem?_map, ha.at_]; rfl
  obtain ⟨t, e1, _⟩ := h.idx.getChunk_ok hC (hp.point hin) hmk ho
  unfold Lib.append at hq
  simp only at hq
  rw [hpe, e1] at hq
  simp only [Res.ok_bind] at hq
  split at hq
  · cases hq
  · obtain ⟨_, f1, hq⟩ := Res.bind_eq_ok.1 hq
    obtain ⟨_, _, hq⟩ := Res.bind_eq_ok.1 hq
    cases hq; exact appendChunk_calm f1 hk

/-- The chunk that is found for an append. -/
theorem append_found (hC : C.Ok) {lib : Lib} {fs : FS} {cs : List (Meta × Arr)} (h : LInv C S Z lib fs cs) {j : Nat} {m : Meta} {a v : Arr} {start : List Nat}
    (ha : AppOk C cs j m a start v) : ∃ x, lib.idx.getChunk (start.set 0 (wsub (start.getD 0 0) 1)) = .ok (x, some (j, m)) := by
  have hU : U64 = 2 ^ 64 := rfl
  have kd := hC.dims
  have hmem : (m, a) ∈ cs := List.mem_of_getElem? ha.at_
  have hp : Placed C m a := h.chunky.placed _ hmem
  have h1 := hp.startLen
  have h3 := hp.stopLen
  have hpos := hp.pos 0 kd
  have hst := hp.getD_stop 0
  have hlt := hp.lt 0 kd
  let p := m.start.set 0 (m.stop.getD 0 0 - 1)
  have hpe : start.set 0 (wsub (start.getD 0 0) 1) = p := by
    rw [ha.start, getD_set0 (by omega), if_pos rfl, wsub_eq (by omega) (by omega), List.set_set]
  have hin : InBox m.start m.stop p := by
    refine ⟨by simp [p], by simp [p, h1, h3], fun d hd => ?_⟩
    have hd : d < C.dims := by simpa [p, h1] using hd
    rw [show p.getD d 0 = _ from getD_set0 (by omega) d]
    have := hp.pos d hd
    have := hp.getD_stop d
    split
    · rename_i e; subst e; omega
    · omega
  have ho := h.chunky.onlyAt ha.at_ hin
  have hmk : (cs.map Prod.fst)[j]? = some m := by rw [List.getElem?_map, ha.at_]; rfl
  obtain ⟨t, e1, _⟩ := h.idx.getChunk_ok hC (hp.point hin) hmk ho
  exact ⟨_, by rw [hpe]; exact e1⟩

end Verif.Dist
