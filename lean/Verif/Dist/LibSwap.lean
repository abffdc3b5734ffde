import Verif.Dist.LibWrite
/-
`SwapAxes` on the whole library.
-/
namespace Verif.Dist
open Verif Verif.ND Verif.Tree Verif.Bytes Verif.Stream Verif.NullSup

variable {C : Cfg} {S : Sorter} {Z : SlabSize}

theorem replaceChunk_ok (hC : C.Ok) {M : Chunks} {cc : CC} {fs : FS} {s : List (Nat × Entry)} (hM : M.Ok C) (h : CInv C M cc fs s) {m m' : Meta} {a' : Arr}
    (hid : m'.id = m.id) (hM' : (M.put m.id (some (m', a'))).Ok C) :
    ∃ cc' fs' s', replaceChunk C cc fs m m' a' = .ok (cc', fs') ∧ cc'.dir = cc.dir ∧ CInv C (M.put m.id (some (m', a'))) cc' fs' s' ∧
      SameBut cc.dir (M.put m.id (some (m', a'))) fs fs' := by
  have step : ∃ cc1 s1, removeChunk cc m = .ok cc1 ∧ cc1.dir = cc.dir ∧ CInv C (M.put m.id none) cc1 fs s1 ∧ m.id ∉ s1.map Prod.fst := by
    unfold removeChunk
    rw [h.rel.contains]
    by_cases hk : m.id ∈ s.map Prod.fst
    · rw [decide_eq_true hk, if_pos rfl]
      obtain ⟨e, he⟩ := mem_of_key hk
      obtain ⟨r, r1, r2, r3⟩ := h.rel.evict he
      refine ⟨{ cc with cache := r.1 }, _, by rw [r1]; rfl, rfl, ⟨r3, fun k e he => ?_, fun k m₁ a hkk hn => ?_⟩, Cache.keyGone_keys⟩
      · obtain ⟨h1, h2⟩ := keyGone_sub he
        obtain ⟨m₁, a, g1, g2⟩ := h.cached k e h1
        exact ⟨m₁, a, by rw [Chunks.put_ne _ _ h2]; exact g1, g2⟩
      · have hkm : k ≠ m.id := by intro e; subst e; rw [Chunks.put_self] at hkk; cases hkk
        rw [Chunks.put_ne _ _ hkm] at hkk
        exact h.disk k m₁ a hkk fun hm => hn (keyGone_key.2 ⟨hm, hkm⟩)
    · rw [decide_eq_false hk]
      exact ⟨cc, s, rfl, rfl, h.erase hk, hk⟩
  obtain ⟨cc1, s1, e1, e2, e3, e4⟩ := step
  have hpp : (M.put m.id none).put m'.id (some (m', a')) = M.put m.id (some (m', a')) := by rw [hid, Chunks.put_put]
  obtain ⟨cc', fs', s', f1, f2, f3, f4⟩ := registerNew_ok hC (hM.erase m.id) e3 (m := m') (a := a') (by rw [hpp]; exact hM') (by rw [hid]; exact e4)
  rw [hpp] at f3 f4
  refine ⟨cc', fs', s', ?_, f2.trans e2, f3, by rw [← e2]; exact f4⟩
  unfold replaceChunk
  rw [decide_eq_true hid.symm]
  show Res.bind _ _ = _
  rw [e1]; exact f1

/-- `a'` is `a` with the axes `p` and `q` exchanged. -/
structure Swapped (C : Cfg) (p q : Nat) (a a' : Arr) : Prop where
  ok : a'.Ok C
  shape : a'.shape = swapAt a.shape p q
  get : ∀ i, ValidInd a.shape i → ∃ v w, a.get C.vd i = .ok v ∧ a'.get C.vd (swapAt i p q) = .ok w ∧ VEq v w

/-- The corresponding relation between the chunks. -/
inductive SwappedAll (C : Cfg) (p q : Nat) : List (Meta × Arr) → List (Meta × Arr) → Prop where
  | nil : SwappedAll C p q [] []
  | cons {c cs a' cs'} : Swapped C p q c.2 a' → SwappedAll C p q cs cs' → SwappedAll C p q (c :: cs) ((c.1.swap p q, a') :: cs')

theorem swapAt_map (l : List Nat) (f : Nat → Nat) {p q : Nat} (hp : p < l.length) (hq : q < l.length) : swapAt (l.map f) p q = (swapAt l p q).map f := by
  unfold swapAt
  rw [List.map_set, List.map_set]
  have e : ∀ d, d < l.length → (l.map f).getD d 0 = f (l.getD d 0) := fun d hd => by
    rw [List.getD_eq_getElem?_getD, List.getD_eq_getElem?_getD, List.getElem?_map, List.getElem?_eq_getElem hd]; rfl
  rw [e q hq, e p hp]

theorem swap_placed {m : Meta} {a a' : Arr} {p q : Nat} (hp : p < C.dims) (hq : q < C.dims) (h : Placed C m a) (hs : a'.shape = swapAt a.shape p q) :
    Placed C (m.swap p q) a' := by
  have h1 := h.startLen
  have h2 := h.shapeLen
  have h3 := h.stopLen
  have sw : ∀ d < C.dims, (if d = p then q else if d = q then p else d) < C.dims := by
    intro d hd
    (repeat' split) <;> omega
  refine ⟨by show (swapAt _ _ _).length = _; rw [length_swapAt, h1], by show (swapAt _ _ _).length = _; rw [length_swapAt, h2], fun d hd => ?_, ?_, fun d hd => ?_, h.ovl, ?_, ?_, h.id, h.path⟩
  · show 0 < (swapAt m.shape p q).getD d 0
    rw [getD_swapAt (by omega) (by omega)]
    exact h.pos _ (sw d hd)
  · show swapAt m.stop p q = addVec (swapAt m.start p q) (swapAt m.shape p q)
    apply ext_getD
    · simp [addVec, length_swapAt, h1, h2, h3]
    · intro d _
      rw [getD_addVec (by rw [length_swapAt, length_swapAt]; omega), getD_swapAt (by omega) (by omega), getD_swapAt (by omega) (by omega), getD_swapAt (by omega) (by omega)]
      exact h.getD_stop _
  · show (swapAt m.stop p q).getD d 0 < _
    rw [getD_swapAt (by omega) (by omega)]
    exact h.lt _ (sw d hd)
  · show swapAt m.offset p q = vsubS (swapAt m.start p q) m.overlap
    rw [h.offset]
    exact swapAt_map _ _ (by omega) (by omega)
  · show a'.shape = (swapAt m.shape p q).map (· + 2 * padOf m)
    rw [hs, h.arr]
    exact swapAt_map _ _ (by omega) (by omega)

theorem inBox_swap {b e i : List Nat} {p q : Nat} (hb : p < b.length ∧ q < b.length) (h : InBox (swapAt b p q) (swapAt e p q) i) :
    InBox b e (swapAt i p q) := by
  have h1 : i.length = b.length := by rw [h.1, length_swapAt]
  have h2 : i.length = e.length := by rw [h.2.1, length_swapAt]
  refine ⟨by rw [length_swapAt, h1], by rw [length_swapAt, h2], fun d hd => ?_⟩
  rw [length_swapAt] at hd
  rw [getD_swapAt (by omega) (by omega)]
  have key : ∀ d' < i.length, (swapAt b p q).getD d' 0 ≤ i.getD d' 0 ∧ i.getD d' 0 < (swapAt e p q).getD d' 0 := h.2.2
  by_cases hdp : d = p
  · rw [if_pos hdp]
    have := key q (by omega)
    rw [getD_swapAt (by omega) (by omega), getD_swapAt (by omega) (by omega)] at this
    by_cases hqp : q = p
    · rw [if_pos hqp] at this; rw [hdp]; rw [hqp] at this ⊢; exact this
    · rw [if_neg hqp, if_pos rfl] at this; rw [hdp]; exact this
  · rw [if_neg hdp]
    by_cases hdq : d = q
    · rw [if_pos hdq]
      have := key p (by omega)
      rw [getD_swapAt (by omega) (by omega), getD_swapAt (by omega) (by omega), if_pos rfl] at this
      rw [hdq]; exact this
    · rw [if_neg hdq]
      have := key d hd
      rw [getD_swapAt (by omega) (by omega), getD_swapAt (by omega) (by omega), if_neg hdp, if_neg hdq] at this
      exact this

theorem SwappedAll.chunky {p q : Nat} (hp : p < C.dims) (hq : q < C.dims) {cs cs' : List (Meta × Arr)} (h : SwappedAll C p q cs cs') :
    (∀ c ∈ cs, Placed C c.1 c.2) → (∀ c ∈ cs', Placed C c.1 c.2) ∧ cs'.map (·.1.id) = cs.map (·.1.id) ∧
      (∀ c' ∈ cs', ∃ c ∈ cs, c'.1 = c.1.swap p q) := by
  induction h with
  | nil => intro _; exact ⟨fun c hc => (by cases hc), rfl, fun c hc => (by cases hc)⟩
  | @cons c cs a' cs' h1 _ ih =>
    intro hpl
    obtain ⟨i1, i2, i3⟩ := ih fun c hc => hpl c (by simp [hc])
    refine ⟨fun c' hc' => ?_, by simp only [List.map_cons, i2]; rfl, fun c' hc' => ?_⟩
    · rcases List.mem_cons.1 hc' with rfl | hc'
      · exact swap_placed hp hq (hpl c (by simp)) h1.shape
      · exact i1 c' hc'
    · rcases List.mem_cons.1 hc' with rfl | hc'
      · exact ⟨c, by simp, rfl⟩
      · obtain ⟨c₁, a1, a2⟩ := i3 c' hc'
        exact ⟨c₁, by simp [a1], a2⟩

theorem SwappedAll.disj {p q : Nat} (hp : p < C.dims) (hq : q < C.dims) {cs cs' : List (Meta × Arr)} (h : SwappedAll C p q cs cs') :
    (∀ c ∈ cs, Placed C c.1 c.2) → Disj cs → Disj cs' := by
  induction h with
  | nil => intro _ _; exact .nil
  | @cons c cs a' cs' h1 h2 ih =>
    intro hpl hd
    unfold Disj at hd ⊢
    rw [List.pairwise_cons] at hd ⊢
    refine ⟨fun c' hc' i hi => ?_, ih (fun c hc => hpl c (by simp [hc])) hd.2⟩
    obtain ⟨_, _, i3⟩ := h2.chunky hp hq fun c hc => hpl c (by simp [hc])
    obtain ⟨c₁, a1, a2⟩ := i3 c' hc'
    have b1 := (hpl c (by simp)).startLen
    have b2 := (hpl c₁ (by simp [a1])).startLen
    rw [a2] at hi
    exact hd.1 c₁ a1 _ ⟨inBox_swap ⟨by omega, by omega⟩ hi.1, inBox_swap ⟨by omega, by omega⟩ hi.2⟩

theorem swapped_null (hC : C.Ok) {p q : Nat} (hp : p < C.dims) (hq : q < C.dims) {m : Meta} {a a' : Arr} (hpl : Placed C m a) (hs : Swapped C p q a a')
    (_ : m.ctype = .all_null) (hz : AEq C.vd (zeros C.vd m.shape) a) : AEq C.vd (zeros C.vd (m.swap p q).shape) a' := by
  have hsl := hpl.shapeLen
  have hsh : a'.shape = swapAt m.shape p q := by rw [hs.shape, ← hz.1]; rfl
  refine ⟨hsh.symm, fun i hi => ?_⟩
  have hzo : (zeros C.vd (m.swap p q).shape).Ok C := zeros_ok (by have := hs.ok.fit; rw [hsh] at this; exact this)
  obtain ⟨v, h1, h2, _⟩ := hzo.get hC (i := i) hi
  have hil : i.length = C.dims := by rw [hi.1]; show (swapAt m.shape p q).length = _; rw [length_swapAt, hsl]
  have hval : ValidInd a.shape (swapAt i p q) := by
    have hi' : ValidInd a'.shape i := by rw [hsh]; exact hi
    have := (valid_swapAt (p := p) (q := q) (by rw [hsh, length_swapAt]; omega) (by rw [hsh, length_swapAt]; omega) hi')
    rw [hs.shape, swapAt_swapAt (by rw [hpl.arrLen]; omega) (by rw [hpl.arrLen]; omega)] at this
    exact this
  obtain ⟨x, y, g1, g2, g3⟩ := hs.get _ hval
  rw [swapAt_swapAt (by omega) (by omega)] at g2
  obtain ⟨u, x', k1, k2, k3⟩ := hz.2 _ (by rw [hz.1]; exact hval)
  rw [g1] at k2; cases k2
  have hu : ∀ w ∈ u, FloatIsZero w := fun w hw => by
    have := get_subset k1 w hw
    unfold zeros at this
    simp only [List.mem_replicate] at this
    rw [this.2]; exact Or.inl rfl
  have hv : ∀ w ∈ v, FloatIsZero w := fun w hw => by
    have := get_subset h1 w hw
    unfold zeros at this
    simp only [List.mem_replicate] at this
    rw [this.2]; exact Or.inl rfl
  have huy := k3.trans g3
  obtain ⟨y', z1, z2, _⟩ := hs.ok.get hC (i := i) (by rw [hsh]; exact hi)
  rw [g2] at z1; cases z1
  refine ⟨v, y, h1, g2, Or.inr ⟨by omega, hv, ?_⟩⟩
  rcases huy with rfl | ⟨_, _, h⟩
  · exact hu
  · exact h

theorem swapOne_ok (hC : C.Ok) {p q : Nat} (hp : p < C.dims) (hq : q < C.dims) {M : Chunks} (hM : M.Ok C) {lib : Lib} {fs : FS} {s : List (Nat × Entry)}
    (hcc : CInv C M lib.cc fs s) (hre : Reach S Z C.dims false false lib.idx.tree) (hne : lib.idx.tree.entries ≠ []) {y : Index} {ms : List Meta}
    (hy : IdxInv C S Z y ms) {m : Meta} {a : Arr} (hm : M m.id = some (m, a)) (hpl : Placed C m a) (hfit : Fit C (swapAt a.shape p q)) (b : Arr) :
    ∃ cc' fs' s' t' t a', swapOne C S p q m (lib, fs, y, b) =
        .ok (⟨cc', { lib.idx with tree := t' }⟩, fs', { y with tree := t, heap := y.heap ++ [m.swap p q] }, a') ∧
      Swapped C p q a a' ∧ cc'.dir = lib.cc.dir ∧ CInv C (M.put m.id (some (m.swap p q, a'))) cc' fs' s' ∧ (M.put m.id (some (m.swap p q, a'))).Ok C ∧
      Reach S Z C.dims false false t' ∧ t'.entries ≠ [] ∧ IdxInv C S Z { y with tree := t, heap := y.heap ++ [m.swap p q] } (ms ++ [m.swap p q]) ∧
      SameBut lib.cc.dir M fs fs' := by
  obtain ⟨cc1, fs1, s1, r, e1, e2, e3, e4, e5, e6⟩ := retrieve_ok hC hM hcc hm
  have hal := hpl.arrLen
  have hrl : (r.hdr C.vd).shape.length = C.dims := by show r.shape.length = _; rw [← e5.1, hal]
  obtain ⟨o, f1, f2, f3⟩ := C07_swap_axes C.vd r.shape _ (r.hdr C.vd) e4.small ViewOf.own r.buf e4.len p q (by omega) (by omega) b.shape b.buf C.junk
  have hsw : Swapped C p q a ⟨swapAt r.shape p q, o⟩ := by
    have hget : ∀ i, ValidInd a.shape i → ∃ v w, a.get C.vd i = .ok v ∧ (⟨swapAt r.shape p q, o⟩ : Arr).get C.vd (swapAt i p q) = .ok w ∧ VEq v w := by
      intro i hi
      obtain ⟨v, w, g1, g2, g3⟩ := e5.2 i hi
      exact ⟨v, w, g1, (f3 i (by show ValidInd r.shape i; rw [← e5.1]; exact hi)).2.trans g2, g3⟩
    have hok : (⟨swapAt r.shape p q, o⟩ : Arr).Ok C := by
      refine ⟨by show Fit C (swapAt r.shape p q); rw [← e5.1]; exact hfit, f2, ?_⟩
      refine bits_of_elems (a := ⟨swapAt r.shape p q, o⟩) hC.vd f2 fun i hi => ?_
      have hrl' : r.shape.length = C.dims := hrl
      have hi' : ValidInd (swapAt r.shape p q) i := hi
      have hil : i.length = C.dims := by rw [hi'.1, length_swapAt]; exact hrl
      have hv := valid_swapAt (p := p) (q := q) (by rw [length_swapAt]; omega) (by rw [length_swapAt]; omega) hi'
      rw [swapAt_swapAt (by omega) (by omega)] at hv
      have g := (f3 (swapAt i p q) hv).2
      rw [swapAt_swapAt (by omega) (by omega)] at g
      obtain ⟨v, k1, _, k3⟩ := e4.get hC hv
      exact ⟨v, g.trans k1, k3⟩
    exact ⟨hok, by show swapAt r.shape p q = _; rw [← e5.1], hget⟩
  have hM' : (M.put m.id (some (m.swap p q, ⟨swapAt r.shape p q, o⟩))).Ok C :=
    put_ok hM (k := m.id) (m := m) (a := a) (m' := m.swap p q) hm rfl rfl rfl hsw.ok fun hn => swapped_null hC hp hq hpl hsw hn (hM.null _ _ _ hm hn).2
  obtain ⟨cc', fs', s', g1, g2, g3, g4⟩ := replaceChunk_ok hC hM e3 (m := m) (m' := m.swap p q) (a' := ⟨swapAt r.shape p q, o⟩) rfl hM'
  have hpl' := swap_placed (a' := ⟨swapAt r.shape p q, o⟩) hp hq hpl hsw.shape
  have hpt : IsPoint C.dims m.start := hpl.point (p := m.start) ⟨rfl, by rw [hpl.startLen, hpl.stopLen], fun d hd => by
    have h1 := hpl.startLen
    have := hpl.getD_stop d; have := hpl.pos d (by omega); omega⟩
  obtain ⟨t', k1, k2⟩ := C20_update_changes_one_box hC.dims hre hne hpt hpl'.isBox
  have hne' : t'.entries ≠ [] := by
    rcases k2 with ⟨rfl, _⟩ | ⟨c, e, _, _, h3⟩
    · exact hne
    · rw [h3]; intro hh
      have := congrArg List.length hh
      rw [List.length_set] at this
      exact hne (List.length_eq_zero_iff.1 this)
  obtain ⟨t, j1, j2⟩ := hy.insert_ok hC (m := m.swap p q) hpl'.isBox
  refine ⟨cc', fs', s', t', t, ⟨swapAt r.shape p q, o⟩, ?_, hsw, g2.trans e2, g3, hM', .update hre hne hpt hpl'.isBox (fun h => by cases h) k1, hne', j2, ?_⟩
  · unfold swapOne
    rw [e1]
    simp only [Res.ok_bind]
    have : (b.hdr C.vd) = mkHdr C.vd b.shape := rfl
    rw [this, f1]
    simp only [Res.ok_bind]
    have hs : (mkHdr C.vd (swapAt (r.hdr C.vd).shape p q)).shape = swapAt r.shape p q := rfl
    rw [hs, g1]
    simp only [Res.ok_bind]
    unfold Index.updateBox
    rw [k1]
    simp only [Res.ok_bind]
    rw [j1]; rfl
  · rw [e2] at g4
    refine e6.trans (g4.mono ?_)
    intro k m₁ a₁ hk
    unfold Chunks.put at hk
    split at hk
    · cases hk; exact ⟨m.id, m, a, hm, rfl⟩
    · exact ⟨k, m₁, a₁, hk, rfl⟩

theorem nodup_mid {A B : List (Meta × Arr)} {c c' : Meta × Arr} (hid : c'.1.id = c.1.id) (hn : ((A ++ c :: B).map (·.1.id)).Nodup) :
    chunksOf (A ++ c' :: B) = (chunksOf (A ++ c :: B)).put c.1.id (some c') ∧ ((A ++ c' :: B).map (·.1.id)).Nodup := by
  have hc : (A ++ c :: B)[A.length]? = some c := by simp
  have hs : (A ++ c :: B).set A.length c' = A ++ c' :: B := by simp
  have := chunksOf_set hn hc hid
  rw [hs] at this
  refine ⟨this, ?_⟩
  have h2 := map_id_set hc hid
  rw [hs] at h2
  rw [h2]; exact hn

theorem swap_loop (hC : C.Ok) {p q : Nat} (hp : p < C.dims) (hq : q < C.dims) : ∀ (rest done : List (Meta × Arr)) {lib : Lib} {fs : FS} {s : List (Nat × Entry)}
    {y : Index} {b : Arr},
    ((done ++ rest).map (·.1.id)).Nodup → (chunksOf (done ++ rest)).Ok C → (∀ c ∈ rest, Placed C c.1 c.2 ∧ Fit C (swapAt c.2.shape p q)) →
    CInv C (chunksOf (done ++ rest)) lib.cc fs s → Reach S Z C.dims false false lib.idx.tree → (rest ≠ [] → lib.idx.tree.entries ≠ []) →
    IdxInv C S Z y (done.map Prod.fst) →
    ∃ cc' fs' s' t' y' b' rest', runLoop (swapOne C S p q) (rest.map Prod.fst) (lib, fs, y, b) = .ok (⟨cc', { lib.idx with tree := t' }⟩, fs', y', b') ∧
      SwappedAll C p q rest rest' ∧ cc'.dir = lib.cc.dir ∧ CInv C (chunksOf (done ++ rest')) cc' fs' s' ∧ (chunksOf (done ++ rest')).Ok C ∧
      IdxInv C S Z y' ((done ++ rest').map Prod.fst) ∧ SameBut lib.cc.dir (chunksOf (done ++ rest)) fs fs'
  | [], done, lib, fs, s, y, b, _, hok, _, hcc, _, _, hy =>
    ⟨lib.cc, fs, s, lib.idx.tree, y, b, [], rfl, .nil, rfl, hcc, hok, by simpa using hy, .refl _⟩
  | c :: rest, done, lib, fs, s, y, b, hn, hok, hpl, hcc, hre, hne, hy => by
      have hmem : c ∈ done ++ c :: rest := by simp
      obtain ⟨cc1, fs1, s1, t1, t, a', e1, e2, e3, e4, e5, e6, e7, e8, e9⟩ := swapOne_ok (S := S) (Z := Z) hC hp hq hok hcc hre (hne (by simp)) hy
        (m := c.1) (a := c.2) (chunksOf_of_mem hn hmem) (hpl c (by simp)).1 (hpl c (by simp)).2 b
      obtain ⟨n1, n2⟩ := nodup_mid (A := done) (B := rest) (c := c) (c' := (c.1.swap p q, a')) rfl hn
      rw [← n1] at e4 e5
      have assoc : ∀ r : List (Meta × Arr), done ++ (c.1.swap p q, a') :: r = (done ++ [(c.1.swap p q, a')]) ++ r := fun r => by simp
      rw [assoc] at e4 e5 n2
      obtain ⟨cc2, fs2, s2, t2, y2, b2, rest', f1, f2, f3, f4, f5, f6, f7⟩ := swap_loop hC hp hq rest (done ++ [(c.1.swap p q, a')])
        (lib := ⟨cc1, { lib.idx with tree := t1 }⟩) (fs := fs1) (s := s1) (b := a') n2 e5 (fun c hc => hpl c (by simp [hc])) e4 e6 (fun _ => e7)
        (by rw [List.map_append]; exact e8)
      refine ⟨cc2, fs2, s2, t2, y2, b2, (c.1.swap p q, a') :: rest', ?_, .cons e2 f2, f3.trans e3, by rw [assoc]; exact f4, by rw [assoc]; exact f5,
        by rw [assoc]; exact f6, ?_⟩
      · show (swapOne C S p q c.1 (lib, fs, y, b)).bind _ = _
        rw [e1]; exact f1
      · have f7 : SameBut lib.cc.dir (chunksOf ((done ++ [(c.1.swap p q, a')]) ++ rest)) fs1 fs2 := by rw [← e3]; exact f7
        refine e9.trans (f7.mono ?_)
        rw [← assoc, n1]
        intro k m₁ a₁ hk
        unfold Chunks.put at hk
        split at hk
        · cases hk; exact ⟨c.1.id, c.1, c.2, chunksOf_of_mem hn hmem, rfl⟩
        · exact ⟨k, m₁, a₁, hk, rfl⟩

theorem Reach.toAny {P : Type} {d : Nat} {rb : Bool} {t : Tree P} (h : Reach S Z d true rb t) : Reach S Z d false rb t := by
  induction h with
  | empty => exact .empty
  | insert _ hb e ih => exact .insert ih hb e
  | update _ hne hp hb _ e ih => exact .update ih hne hp hb (fun h => by cases h) e
  | rebuild _ hr hne e ih => exact .rebuild ih hr hne e
  | search _ hne hp e ih => exact .search ih hne hp e
  | clear _ ih => exact .clear ih

theorem swapAxes_ok (hC : C.Ok) {p q : Nat} (hp : p < C.dims) (hq : q < C.dims) {lib : Lib} {fs : FS} {cs : List (Meta × Arr)} (h : LInv C S Z lib fs cs)
    (hfit : ∀ c ∈ cs, Fit C (swapAt c.2.shape p q)) :
    ∃ lib' fs' cs', lib.swapAxes C S fs p q = .ok (lib', fs') ∧ SwappedAll C p q cs cs' ∧ LInv C S Z lib' fs' cs' ∧
      lib'.idx.nextId = lib.idx.nextId ∧ lib'.idx.dir = lib.idx.dir ∧ SameBut lib.idx.dir (chunksOf cs) fs fs' := by
  obtain ⟨s, hs⟩ := h.cache
  obtain ⟨cc', fs', s', t', y', b', cs', e1, e2, e3, e4, e5, e6, e7⟩ := swap_loop (S := S) (Z := Z) hC hp hq cs [] (lib := lib) (fs := fs) (s := s)
    (y := Index.empty C lib.idx.dir) (b := ⟨List.replicate C.dims 1, (List.range (volume C.vd (List.replicate C.dims 1))).map C.junk⟩)
    h.chunky.ids h.chunky.ok (fun c hc => ⟨h.chunky.placed c hc, hfit c hc⟩) hs (Reach.toAny h.idx.reach)
    (fun hne => h.idx.ne (by simpa using hne)) (IdxInv.empty _)
  obtain ⟨c1, c2, _⟩ := e2.chunky hp hq h.chunky.placed
  refine ⟨⟨cc', { lib.idx with tree := y'.tree, heap := y'.heap, valid := false }⟩, fs', cs', ?_, e2,
    ⟨⟨c1, e2.disj hp hq h.chunky.placed h.chunky.disj, by rw [c2]; exact h.chunky.ids, e5⟩, ?_, e3.trans h.dir, ⟨s', e4⟩, metaValid_false rfl⟩, rfl, rfl,
    by rw [← h.dir]; exact e7⟩
  · unfold Lib.swapAxes
    rw [h.idx.all_ok]
    simp only [Res.ok_bind]
    rw [e1]; rfl
  · exact IdxInv.congr e6 rfl rfl

end Verif.Dist
