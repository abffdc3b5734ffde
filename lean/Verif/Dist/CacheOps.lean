import Verif.Dist.CacheProps
/-
The public operations of the chunk cache preserve its contents.
-/
namespace Verif.Dist
open Verif Verif.ND Verif.Bytes Verif.Stream
open Verif.Cache (CRel keyGone)

variable {C : Cfg}

theorem Chunks.put_put (M : Chunks) (k : Nat) (v w) : (M.put k v).put k w = M.put k w := by
  funext j; unfold Chunks.put; split <;> rfl

theorem Chunks.erase_none {M : Chunks} {k : Nat} (h : M k = none) : M.put k none = M := by
  funext j; unfold Chunks.put; split
  · rename_i hj; rw [hj, h]
  · rfl

theorem sub_erase (M : Chunks) (k : Nat) : ∀ j m a, M.put k none j = some (m, a) → ∃ k' m' a', M k' = some (m', a') ∧ m'.path = m.path := by
  intro j m a hj
  refine ⟨j, m, a, ?_, rfl⟩
  unfold Chunks.put at hj; split at hj
  · cases hj
  · exact hj

theorem sub_put (M : Chunks) (k : Nat) (v) : ∀ j m a, M.put k none j = some (m, a) → ∃ k' m' a', M.put k v k' = some (m', a') ∧ m'.path = m.path := by
  intro j m a hj
  refine ⟨j, m, a, ?_, rfl⟩
  unfold Chunks.put at hj ⊢; split at hj
  · cases hj
  · rename_i h; rw [if_neg h]; exact hj

/-- `RegisterNewChunk` of a chunk that is not in the cache. -/
theorem registerNew_ok' (hC : C.Ok) {M : Chunks} {cc : CC} {fs : FS} {s : List (Nat × Entry)} (hM : M.Ok C) (h : CInv C M cc fs s) {m m' : Meta} {a : Arr}
    (hid : m.id = m'.id) (hpath : m.path = m'.path) (hct : m.ctype = m'.ctype)
    (hM' : (M.put m.id (some (m', a))).Ok C) (hk : m.id ∉ s.map Prod.fst) :
    ∃ cc' fs' s', registerNew C cc fs m a = .ok (cc', fs') ∧ cc'.dir = cc.dir ∧ CInv C (M.put m.id (some (m', a))) cc' fs' s' ∧
      SameBut cc.dir (M.put m.id (some (m', a))) fs fs' ∧ (C.size = 0 → s' = []) := by
  have ha : a.Ok C := hM'.arr _ _ _ (Chunks.put_self _ _ _)
  obtain ⟨cc1, fs1, s1, h1, h2, h3, h4⟩ := insertInto_ok' (M := M.put m.id none) (st := .serialize) hC (h.erase hk) (m := m) (m' := m') (a := a) (v := a)
    (by rw [Chunks.put_put]; exact hM') (hM.erase _) hk ha
    (fun b hb hab => ⟨hid, hpath, hct, hb, hab.symm⟩) (Chunks.put_self _ _ _)
  rw [Chunks.put_put] at h3
  obtain ⟨cc2, fs2, s2, g1, g2, g3, g4, g5⟩ := flushIf_ok hC hM' h3
  refine ⟨cc2, fs2, s2, ?_, g2.trans h2, g3, ?_, g5⟩
  · unfold registerNew; simp only [h1, Res.ok_bind, g1]
  · rw [h2] at g4; exact (h4.mono (sub_put _ _ _)).trans g4

theorem registerNew_ok (hC : C.Ok) {M : Chunks} {cc : CC} {fs : FS} {s : List (Nat × Entry)} (hM : M.Ok C) (h : CInv C M cc fs s) {m : Meta} {a : Arr}
    (hM' : (M.put m.id (some (m, a))).Ok C) (hk : m.id ∉ s.map Prod.fst) :
    ∃ cc' fs' s', registerNew C cc fs m a = .ok (cc', fs') ∧ cc'.dir = cc.dir ∧ CInv C (M.put m.id (some (m, a))) cc' fs' s' ∧
      SameBut cc.dir (M.put m.id (some (m, a))) fs fs' := by
  obtain ⟨cc', fs', s', h1, h2, h3, h4, _⟩ := registerNew_ok' hC hM h (m := m) (m' := m) rfl rfl rfl hM' hk
  exact ⟨cc', fs', s', h1, h2, h3, h4⟩

/-- Replacing an entry of the cache, with its file changing at most. -/
theorem CInv.swapEntry {M : Chunks} {cc cc' : CC} {fs fs' : FS} {s : List (Nat × Entry)} (hM : M.Ok C) (h : CInv C M cc fs s) {k : Nat} {e' : Entry}
    {m m' : Meta} {a a' : Arr} (hk : M k = some (m, a)) (hpath : m'.path = m.path) (hdir : cc'.dir = cc.dir)
    (hrel : CRel (max 1 C.size) cc'.cache (keyGone k s ++ [(k, e')])) (hf : ∀ p, m.path = [] ∨ p ≠ absPath cc.dir m → fs' p = fs p)
    (he : EntryOk C cc.dir fs' e' m' a') (hmem : k ∈ s.map Prod.fst) : CInv C (M.put k (some (m', a'))) cc' fs' (keyGone k s ++ [(k, e')]) where
  rel := hrel
  cached := by
    intro j e hj
    rw [hdir]
    rcases List.mem_append.1 hj with hj | hj
    · obtain ⟨h1, h2⟩ := keyGone_sub hj
      obtain ⟨mj, aj, h3, h4⟩ := h.cached j e h1
      exact ⟨mj, aj, by rw [Chunks.put_ne _ _ h2]; exact h3, h4.frame fun hs => hf _ (Or.inr (absPath_ne hM hk h3 hs h2))⟩
    · rw [List.mem_singleton] at hj; cases hj
      exact ⟨m', a', Chunks.put_self _ _ _, he⟩
  disk := by
    intro j mj aj hj hn
    rw [hdir]
    have hjk : j ≠ k := by rintro rfl; simp at hn
    rw [Chunks.put_ne _ _ hjk] at hj
    refine (h.disk j mj aj hj fun hm => hn ?_).frame fun hs => hf _ (Or.inr (absPath_ne hM hk hj hs hjk))
    rw [List.map_append]
    exact List.mem_append_left _ (keyGone_key.2 ⟨hm, hjk⟩)

theorem put_same {M : Chunks} {k : Nat} {v} (h : M k = some v) : M.put k (some v) = M := by
  funext j; unfold Chunks.put; split
  · rename_i hj; rw [hj, h]
  · rfl

theorem mem_of_key {K V : Type} {s : List (K × V)} {k : K} (h : k ∈ s.map Prod.fst) : ∃ v, (k, v) ∈ s := by
  obtain ⟨p, hp, rfl⟩ := List.mem_map.1 h; exact ⟨p.2, hp⟩

/-- `sync_cache_element_with_disk` of an entry with a pending append. -/
theorem sync_ok (hC : C.Ok) {dir : Nat} {fs : FS} {e : Entry} {m : Meta} {a : Arr} {ax : Nat} (ha : a.Ok C)
    (h : EntryOk C dir fs e m a) (hs : e.stat = .append ax) :
    ∃ fs' e', sync C dir fs e = .ok (fs', e') ∧ EntryOk C dir fs' e' m a ∧ e'.stat = .nothing ∧ AEq C.vd a e'.data ∧
      ∀ p, p ≠ absPath dir m → fs' p = fs p := by
  have hst := h.stat
  rw [hs] at hst
  obtain ⟨rfl, h2, b, f, h3, h4, h5, h6, h7⟩ := hst
  obtain ⟨f', g1, g2⟩ := app_holds hC h3 h.ok h6 h5
  have g2' := holds_congr g2 h7
  obtain ⟨b', k3, k4, k5⟩ := des_holds hC ha g2' e.data
  refine ⟨fs.set (absPath dir e.info) (some f'), { e with data := b', stat := .nothing }, ?_, ?_, rfl, k5, ?_⟩
  · unfold sync loadFile
    rw [if_neg (by rw [h.ctype, h2]; decide), h.info, h4]
    simp only [hs, g1, k3, Res.ok_bind]
    rfl
  · exact ⟨h.id, h.path, h.ctype, k4, k5.symm, fun _ => ⟨f', by rw [h.info]; simp [FS.set], g2'⟩⟩
  · intro p hp; rw [h.info]; simp [FS.set, hp]

/-- `RetrieveChunk`. -/
theorem retrieve_ok (hC : C.Ok) {M : Chunks} {cc : CC} {fs : FS} {s : List (Nat × Entry)} (hM : M.Ok C) (h : CInv C M cc fs s) {m : Meta} {a : Arr}
    (hm : M m.id = some (m, a)) :
    ∃ cc' fs' s' b, retrieve C cc fs m = .ok (cc', fs', b) ∧ cc'.dir = cc.dir ∧ CInv C M cc' fs' s' ∧ b.Ok C ∧ AEq C.vd a b ∧
      SameBut cc.dir M fs fs' := by
  unfold retrieve
  rw [h.rel.contains]
  by_cases hk : m.id ∈ s.map Prod.fst
  · simp only [hk, decide_true, if_true]
    obtain ⟨e, hmem⟩ := mem_of_key hk
    obtain ⟨r, h1, h2, h3, h4⟩ := h.rel.get hmem
    obtain ⟨m0, a0, h5, h6⟩ := h.cached _ _ hmem
    rw [hm] at h5; cases h5
    simp only [h1, Res.ok_bind, h2]
    have e0 := put_same hm
    have hst := h6.stat
    cases hs : e.stat with
    | nothing =>
      rw [hs] at hst
      refine ⟨_, _, keyGone m.id s ++ [(m.id, e)], _, rfl, rfl, ?_, h6.ok, hst.1.symm, .refl _⟩
      have := h.swapEntry (cc' := { cc with cache := r.1 }) (fs' := fs) (m' := m) (a' := a) hM hm rfl rfl h3 (fun _ _ => rfl) h6 hk
      rw [e0] at this; exact this
    | serialize =>
      rw [hs] at hst
      refine ⟨_, _, keyGone m.id s ++ [(m.id, e)], _, rfl, rfl, ?_, h6.ok, hst.symm, .refl _⟩
      have := h.swapEntry (cc' := { cc with cache := r.1 }) (fs' := fs) (m' := m) (a' := a) hM hm rfl rfl h3 (fun _ _ => rfl) h6 hk
      rw [e0] at this; exact this
    | append ax =>
      obtain ⟨fs', e', g1, g2, g3, g4, g5⟩ := sync_ok hC (hM.arr _ _ _ hm) h6 hs
      rw [hs] at hst
      have hne := hM.spec _ _ _ hm hst.2.1
      have hf : ∀ p, m.path = [] ∨ p ≠ absPath cc.dir m → fs' p = fs p := by
        rintro p (hp | hp)
        · exact absurd hp hne
        · exact g5 p hp
      simp only [g1, Res.ok_bind]
      refine ⟨_, _, keyGone m.id s ++ [(m.id, e')], _, rfl, rfl, ?_, g2.ok, g4, sameBut_of hm hf⟩
      have := h.swapEntry (cc' := { cc with cache := Cache.store r.1 r.2 e' }) (fs' := fs') (m' := m) (a' := a) hM hm rfl rfl (h4 e') hf g2 hk
      rw [e0] at this; exact this
  · simp only [hk, decide_false]
    exact deserInto_ok hC hM h hm hk

/-- Extending a chunk does not disturb the others. -/
theorem put_ok {M : Chunks} (hM : M.Ok C) {k : Nat} {m m' : Meta} {a a' : Arr} (hk : M k = some (m, a)) (hid : m'.id = m.id) (hpath : m'.path = m.path)
    (hct : m'.ctype = m.ctype) (ha : a'.Ok C) (hn : m.ctype = .all_null → AEq C.vd (zeros C.vd m'.shape) a') : (M.put k (some (m', a'))).Ok C := by
  have key : ∀ j mj aj, M.put k (some (m', a')) j = some (mj, aj) → (j = k ∧ mj = m' ∧ aj = a') ∨ M j = some (mj, aj) := by
    intro j mj aj hj
    by_cases hjk : j = k
    · subst hjk; rw [Chunks.put_self] at hj; cases hj; exact Or.inl ⟨rfl, rfl, rfl⟩
    · rw [Chunks.put_ne _ _ hjk] at hj; exact Or.inr hj
  have old : ∀ j mj aj, M.put k (some (m', a')) j = some (mj, aj) → ∃ m0 a0, M j = some (m0, a0) ∧ m0.path = mj.path := by
    intro j mj aj hj
    rcases key j mj aj hj with ⟨rfl, rfl, rfl⟩ | h
    · exact ⟨m, a, hk, hpath.symm⟩
    · exact ⟨mj, aj, h, rfl⟩
  refine ⟨fun j mj aj hj => ?_, fun j mj aj hj => ?_, fun j mj aj hj => ?_, fun j mj aj hj => ?_, fun j mj aj j' mj' aj' hj hj' hne he => ?_⟩
  · rcases key j mj aj hj with ⟨rfl, rfl, rfl⟩ | h
    · rw [hid]; exact hM.id _ _ _ hk
    · exact hM.id _ _ _ h
  · rcases key j mj aj hj with ⟨rfl, rfl, rfl⟩ | h
    · exact ha
    · exact hM.arr _ _ _ h
  · rcases key j mj aj hj with ⟨rfl, rfl, rfl⟩ | h
    · rw [hct, hpath]; exact hM.spec _ _ _ hk
    · exact hM.spec _ _ _ h
  · rcases key j mj aj hj with ⟨rfl, rfl, rfl⟩ | h
    · rw [hct, hpath]; intro hc; exact ⟨(hM.null _ _ _ hk hc).1, hn hc⟩
    · exact hM.null _ _ _ h
  · obtain ⟨m0, a0, h1, h2⟩ := old _ _ _ hj
    obtain ⟨m1, a1, h3, h4⟩ := old _ _ _ hj'
    exact hM.inj _ _ _ _ _ _ h1 h3 (by rw [h2]; exact hne) (by rw [h2, h4]; exact he)

theorem concat_of_tail {n m : Nat} {R : List Nat} : shapeAllowsConcat (n :: R) (m :: R) 0 = true := by
  simp only [shapeAllowsConcat, List.all_eq_true, List.mem_range, Bool.or_eq_true, beq_iff_eq]
  intro d hd
  cases d with
  | zero => left; rfl
  | succ d => right; rfl

/-- `AppendSlice<0>` to a chunk whose recorded shape is that of its data (no padding). -/
theorem appendChunk_ok (hC : C.Ok) {M : Chunks} {cc : CC} {fs : FS} {s : List (Nat × Entry)} (hM : M.Ok C) (h : CInv C M cc fs s) {m : Meta} {a v : Arr}
    (hm : M m.id = some (m, a)) (hct : m.ctype = .specified) (hsh : m.shape = a.shape) (hv : v.Ok C) (he : Extends C a v) :
    ∃ cc' fs' s', appendChunk C 0 cc fs m v = .ok (cc', fs', m.grow 0 (v.shape.getD 0 0)) ∧ cc'.dir = cc.dir ∧
      CInv C (M.put m.id (some (m.grow 0 (v.shape.getD 0 0), a.cat v))) cc' fs' s' ∧
      (M.put m.id (some (m.grow 0 (v.shape.getD 0 0), a.cat v))).Ok C ∧ SameBut cc.dir M fs fs' := by
  have ha := hM.arr _ _ _ hm
  obtain ⟨n, l, R, s1, s2, s3⟩ := he.shapes hC ha hv
  have hcat : (a.cat v).Ok C := cat_ok hC ha hv he
  generalize hm' : m.grow 0 (v.shape.getD 0 0) = m'
  have i1 : m'.id = m.id := by rw [← hm']; rfl
  have i2 : m'.path = m.path := by rw [← hm']; rfl
  have i3 : m'.ctype = m.ctype := by rw [← hm']; rfl
  have hM' : (M.put m.id (some (m', a.cat v))).Ok C := put_ok hM hm i1 i2 i3 hcat (by rw [hct]; intro h; cases h)
  have hne := hM.spec _ _ _ hm hct
  -- the final step
  have fin : ∀ (q : Res (CC × FS)), (∃ cc1 fs1 s1, q = .ok (cc1, fs1) ∧ cc1.dir = cc.dir ∧ CInv C (M.put m.id (some (m', a.cat v))) cc1 fs1 s1 ∧ SameBut cc.dir M fs fs1) →
      ∃ cc' fs' s', (q.bind fun q => (flushIfUncached C q.1 q.2).bind fun q => .ok (q.1, q.2, m')) = .ok (cc', fs', m') ∧ cc'.dir = cc.dir ∧
        CInv C (M.put m.id (some (m', a.cat v))) cc' fs' s' ∧ (M.put m.id (some (m', a.cat v))).Ok C ∧ SameBut cc.dir M fs fs' := by
    rintro q ⟨cc1, fs1, s1, rfl, h1, h2, h3⟩
    obtain ⟨cc', fs', s', g1, g2, g3, g4, _⟩ := flushIf_ok hC hM' h2
    refine ⟨cc', fs', s', by simp only [Res.ok_bind, g1], g2.trans h1, g3, hM', h3.trans ?_⟩
    rw [h1] at g4
    refine g4.mono fun k mk ak hk => ?_
    by_cases hkk : k = m.id
    · subst hkk; rw [Chunks.put_self] at hk; cases hk; exact ⟨_, _, _, hm, i2.symm⟩
    · rw [Chunks.put_ne _ _ hkk] at hk; exact ⟨_, _, _, hk, rfl⟩
  -- inserting the slice as a new entry
  have ins : ∀ (cc0 : CC) (s0 : List (Nat × Entry)), cc0.dir = cc.dir → CInv C (M.put m.id none) cc0 fs s0 → m.id ∉ s0.map Prod.fst → OnDisk C cc.dir fs m a →
      ∃ cc1 fs1 s1, insertInto C cc0 fs m' v (.append 0) = .ok (cc1, fs1) ∧ cc1.dir = cc.dir ∧ CInv C (M.put m.id (some (m', a.cat v))) cc1 fs1 s1 ∧ SameBut cc.dir M fs fs1 := by
    intro cc0 s0 hd0 hinv hk0 hod
    obtain ⟨cc1, fs1, s1', h1, h2, h3, h4⟩ := insertInto_ok (M := M.put m.id none) (st := .append 0) hC hinv (m := m') (a := a.cat v) (v := v)
      (by rw [i1, Chunks.put_put]; exact hM') (hM.erase _) (by rw [i1]; exact hk0) hv
      (fun b hb hab => by
        refine ⟨rfl, rfl, rfl, hb, rfl, by rw [i3]; exact hct, ?_⟩
        obtain ⟨f, f1, f2⟩ := hod hct
        refine ⟨a, f, ha, by rw [hd0]; unfold absPath at f1 ⊢; rw [i2]; exact f1, f2, ?_, ?_⟩
        · refine ⟨by show b.shape.tail = _; rw [← hab.1]; exact he.tail, ?_⟩
          have : (a.cat b).shape = (a.cat v).shape := by unfold Arr.cat; rw [hab.1]
          show Fit C (a.cat b).shape
          rw [this]; exact he.fit
        · exact (cat_congr hC ha ha hv hb he (AEq.refl hC ha) hab).symm)
      (by rw [i1]; exact Chunks.put_self _ _ _)
    rw [i1, Chunks.put_put] at h3
    exact ⟨cc1, fs1, s1', h1, h2.trans hd0, h3, by rw [hd0] at h4; exact h4.mono (sub_erase _ _)⟩
  unfold appendChunk
  rw [hsh, s1, s2, concat_of_tail, if_neg (by decide)]
  rw [s2] at hm'
  simp only [hm']
  refine fin _ ?_
  rw [h.rel.contains]
  by_cases hk : m.id ∈ s.map Prod.fst
  · simp only [hk, decide_true, if_true]
    obtain ⟨e, hmem⟩ := mem_of_key hk
    obtain ⟨r, h1, h2, h3, h4⟩ := h.rel.get hmem
    obtain ⟨m0, a0, h5, h6⟩ := h.cached _ _ hmem
    rw [hm] at h5; cases h5
    simp only [h1, Res.ok_bind, h2]
    have hst := h6.stat
    cases hs : e.stat with
    | nothing =>
      rw [hs] at hst
      simp only
      obtain ⟨r1, g1, g2, g3⟩ := h3.evict (k := m.id) (v := e) (by simp)
      simp only [g1, Res.ok_bind]
      have hkg : keyGone m.id (keyGone m.id s ++ [(m.id, e)]) = keyGone m.id s := by
        unfold keyGone; simp
      rw [hkg] at g3
      refine ins _ (keyGone m.id s) rfl ?_ ?_ hst.2
      · refine CInv.mk g3 ?_ ?_
        · intro j e' hj
          obtain ⟨k1, k2⟩ := keyGone_sub hj
          rw [Chunks.put_ne _ _ k2]; exact h.cached _ _ k1
        · intro j mj aj hj hn
          have hjk : j ≠ m.id := by rintro rfl; rw [Chunks.put_self] at hj; cases hj
          rw [Chunks.put_ne _ _ hjk] at hj
          exact h.disk _ _ _ hj fun hmm => hn (keyGone_key.2 ⟨hmm, hjk⟩)
      · intro hmm; exact (keyGone_key.1 hmm).2 rfl
    | serialize =>
      rw [hs] at hst
      simp only
      have hext : Extends C e.data v := ⟨by rw [hst.1]; exact he.tail, by
        have : (e.data.cat v).shape = (a.cat v).shape := by unfold Arr.cat; rw [hst.1]
        rw [this]; exact he.fit⟩
      obtain ⟨n', l', R', t1, t2, t3⟩ := hext.shapes hC h6.ok hv
      have happ : appendArr C e.data v 0 = .ok (e.data.cat v) := by
        unfold appendArr
        rw [append_eq_cat t1 t2 (by omega) h6.ok.len hv.len]; rfl
      simp only [happ, Res.ok_bind]
      refine ⟨_, _, _, rfl, rfl, h.swapEntry hM hm i2 rfl (h4 _) (fun _ _ => rfl) ⟨rfl, rfl, rfl, cat_ok hC h6.ok hv hext, ?_⟩ hk, .refl _⟩
      show match e.stat with | _ => _
      rw [hs]
      exact cat_congr hC h6.ok ha hv hv hext hst (AEq.refl hC hv)
    | append ax =>
      rw [hs] at hst
      obtain ⟨rfl, q2, b, f, q3, q4, q5, q6, q7⟩ := hst
      obtain ⟨n1, l1, R1, t1, t2, t3⟩ := q6.shapes hC q3 h6.ok
      have hsa := cat_shape t1 t2
      rw [q7.1, s1] at hsa
      simp only [List.cons.injEq] at hsa
      obtain ⟨e1, rfl⟩ := hsa
      -- the pending slice extended by the new one
      have hcs : (e.data.cat v).shape = (l1 + l) :: R := cat_shape t2 s2
      have hfit2 : Fit C (e.data.cat v).shape := by
        have hb := he.fit
        rw [cat_shape s1 s2, e1] at hb
        rw [hcs]
        refine ⟨by rw [← h6.ok.fit.len, t2]; rfl, ?_, ?_, ?_, ?_, ?_⟩
        · intro x hx
          rcases List.mem_cons.1 hx with rfl | hx
          · have := hb.lt (n1 + l1 + l) (by simp)
            omega
          · exact hb.lt x (List.mem_cons_of_mem _ hx)
        · refine Nat.lt_of_le_of_lt ?_ hb.vol
          rw [volume_cons, volume_cons]; exact Nat.mul_le_mul_right _ (by omega)
        · have d1 := h6.ok.fit.div0; have d2 := hv.fit.div0
          rw [t2] at d1; rw [s2] at d2
          simp only [List.getD_cons_zero] at d1 d2 ⊢
          exact Nat.dvd_add d1 d2
        · intro d hd hd'
          have := hv.fit.fit d hd hd'
          rw [s2] at this
          cases d with
          | zero => omega
          | succ d => simpa using this
        · have := hv.fit.below; rw [s2] at this; exact this
      have hext : Extends C e.data v := ⟨by rw [t2, s2]; rfl, hfit2⟩
      have happ : appendArr C e.data v 0 = .ok (e.data.cat v) := by
        unfold appendArr
        rw [append_eq_cat t2 s2 (by omega) h6.ok.len hv.len]; rfl
      have hext' : Extends C b (e.data.cat v) := by
        refine ⟨by rw [hcs, t1]; rfl, ?_⟩
        rw [cat_shape t1 hcs]
        have := he.fit
        rw [cat_shape s1 s2, e1, Nat.add_assoc] at this; exact this
      have hcatE : (e.data.cat v).Ok C := cat_ok hC h6.ok hv hext
      have hassoc : AEq C.vd (b.cat (e.data.cat v)) (a.cat v) := by
        rcases cat_assoc hC q3 (s := e.data) (t := v) with hh | hh
        · rw [← hh]
          refine cat_congr hC (cat_ok hC q3 h6.ok q6) ha hv hv ⟨?_, ?_⟩ q7 (AEq.refl hC hv)
          · rw [cat_shape t1 t2, s2]; rfl
          · rw [hh]; exact hext'.fit
        · rw [t2] at hh; cases hh
      unfold appendPending
      simp only [ne_eq, not_true, if_false, Res.ok_bind, happ]
      refine ⟨_, _, _, rfl, rfl, h.swapEntry hM hm i2 rfl (h4 _) (fun _ _ => rfl) ⟨rfl, rfl, rfl, hcatE, ?_⟩ hk, .refl _⟩
      show match e.stat with | _ => _
      rw [hs]
      refine ⟨rfl, by rw [i3]; exact q2, b, f, q3, by unfold absPath at q4 ⊢; rw [i2]; exact q4, q5, hext', hassoc⟩
  · simp only [hk, decide_false]
    exact ins cc s rfl (h.erase hk) hk (h.disk _ _ _ hm hk)

end Verif.Dist
