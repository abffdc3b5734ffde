import Verif.Meep.RechunkOne
/-
All processes of `rechunk_mpi` up to the barrier, in any order.
-/
namespace Verif.Meep
open Verif Verif.ND Verif.Dist Verif.Tree Verif.Rebuild Verif.Ops

variable {C : Cfg} {S : Sorter} {Z : SlabSize} {ps : List Piece} {ge : List Nat} {X : Rech}

/-! ### Schedules -/

/-- Steps that can be executed when the processes `A` have started. -/
def Enabled (m : Nat) : (Nat → Prop) → List Ev → Prop
  | _, [] => True
  | A, .start j :: r => Enabled m (fun k => k = j ∨ A k) r
  | A, .part j n :: r => A j ∧ n < m ∧ Enabled m A r

theorem enabled_of {J m : Nat} : ∀ (σ : List Ev) (A : Nat → Prop), (∀ e ∈ σ, e.job < J) →
    (∀ j < J, (σ.filter fun e => e.job = j) = program J m j ∨ A j ∧ ∀ e ∈ σ.filter fun e => e.job = j, ∃ n < m, e = .part j n) → Enabled m A σ
  | [], _, _, _ => trivial
  | e :: σ, A, ho, h => by
      have ho' : ∀ e ∈ σ, e.job < J := fun e he => ho e (by simp [he])
      have hj : e.job < J := ho e (by simp)
      have hself : ((e :: σ).filter fun x => x.job = e.job) = e :: σ.filter fun x => x.job = e.job := by simp
      have hother : ∀ j, j ≠ e.job → ((e :: σ).filter fun x => x.job = j) = σ.filter fun x => x.job = j := fun j hne => by
        rw [List.filter_cons, if_neg (by simpa using fun h => hne h.symm)]
      have h1 := h _ hj
      rw [hself] at h1
      rcases h1 with h1 | ⟨hA, h1⟩
      · unfold program at h1
        injection h1 with h2 h3
        cases e with
        | part j n => cases h2
        | start j =>
          refine enabled_of σ _ ho' fun k hk => ?_
          by_cases hkj : k = j
          · subst hkj
            refine Or.inr ⟨Or.inl rfl, fun e he => ?_⟩
            replace h3 : (σ.filter fun x => x.job = k) = _ := h3
            rw [h3] at he
            obtain ⟨n, hn, rfl⟩ := List.mem_map.1 he
            exact ⟨n, by have := (List.mem_filter.1 hn).1; simpa using this, rfl⟩
          · have h4 := h k hk
            rw [hother k hkj] at h4
            exact h4.imp_right fun h4 => ⟨Or.inr h4.1, h4.2⟩
      · obtain ⟨n, hn, he⟩ := h1 e (by simp)
        have hej : Ev.part e.job n = e := he.symm
        generalize e.job = j at *
        subst hej
        refine ⟨hA, hn, enabled_of σ _ ho' fun k hk => ?_⟩
        by_cases hkj : k = j
        · subst hkj
          exact Or.inr ⟨hA, fun e he => h1 e (by simp; exact Or.inr (by simpa using he))⟩
        · have h4 := h k hk
          rw [hother k hkj] at h4
          exact h4

theorem Schedule.enabled {J m : Nat} {σ : List Ev} (h : Schedule J m σ) : Enabled m (fun _ => False) σ :=
  enabled_of σ _ h.only fun j hj => Or.inl (h.order j hj)

theorem Schedule.starts {J m : Nat} {σ : List Ev} (h : Schedule J m σ) {j : Nat} (hj : j < J) : Ev.start j ∈ σ := by
  have : Ev.start j ∈ σ.filter fun e => e.job = j := by rw [h.order j hj]; simp [program]
  exact (List.mem_filter.1 this).1

theorem Schedule.parts {J m : Nat} {σ : List Ev} (h : Schedule J m σ) (hJ : 0 < J) {n : Nat} (hn : n < m) : Ev.part (n % J) n ∈ σ := by
  have hj := Nat.mod_lt n hJ
  have : Ev.part (n % J) n ∈ σ.filter fun e => e.job = n % J := by
    rw [h.order _ hj]
    exact List.mem_cons_of_mem _ (List.mem_map.2 ⟨n, by simp [hn], rfl⟩)
  exact (List.mem_filter.1 this).1

/-- A schedule exists: one process after the other. -/
theorem schedule_exists (J m : Nat) : Schedule J m ((List.range J).flatMap (program J m)) := by
  have hjob : ∀ j, ∀ e ∈ program J m j, e.job = j := by
    intro j e he
    rcases List.mem_cons.1 he with rfl | he
    · rfl
    · obtain ⟨n, _, rfl⟩ := List.mem_map.1 he; rfl
  have key : ∀ (l : List Nat) (j : Nat), l.Nodup → ((l.flatMap (program J m)).filter fun e => e.job = j) = if j ∈ l then program J m j else [] := by
    intro l j
    induction l with
    | nil => intro _; rfl
    | cons a l ih =>
      intro hn
      obtain ⟨hn1, hn2⟩ := List.nodup_cons.1 hn
      rw [List.flatMap_cons, List.filter_append, ih hn2]
      by_cases haj : j = a
      · subst haj
        rw [if_neg hn1, if_pos (by simp), List.append_nil]
        exact List.filter_eq_self.2 fun e he => by simpa using hjob j e he
      · have : ((program J m a).filter fun e => e.job = j) = [] := List.filter_eq_nil_iff.2 fun e he => by
          have := hjob a e he
          simp [this]; exact fun h => haj h.symm
        rw [this, List.nil_append]
        by_cases hjl : j ∈ l
        · rw [if_pos hjl, if_pos (by simp [hjl])]
        · rw [if_neg hjl, if_neg (by simp [hjl, haj])]
  refine ⟨fun j hj => ?_, fun e he => ?_⟩
  · rw [key _ _ List.nodup_range, if_pos (by simpa using hj)]
  · obtain ⟨j, hj, he⟩ := List.mem_flatMap.1 he
    rw [hjob j e he]; simpa using hj

/-! ### Up to the barrier -/

/-- The state when the processes `A` have started and the partitions `D` are done. -/
structure PInv (C : Cfg) (S : Sorter) (Z : SlabSize) (ps : List Piece) (ge : List Nat) (X : Rech) (cs : List (Meta × Arr)) (parts : List (List Nat × List Nat)) (fs₀ : FS)
    (A D : Nat → Prop) (st : PState) : Prop where
  other : ∀ d, (∀ n < parts.length, d ≠ X.dir n) → ∀ m, st.fs (d, m) = fs₀ (d, m)
  started : ∀ j, A j → ∃ lib, st.proc j = some (lib, parts)
  ready : ∀ j lib q, st.proc j = some (lib, q) → q = parts ∧ Ready C S Z X cs st.fs lib
  done : ∀ n, D n → ∃ p cs', parts[n]? = some p ∧ PartFiles C ps ge X n p st.fs cs'

theorem phase1 (hC : C.Ok) (hchunk : C.chunk = (outCfg C).chunk) (hjunk : ∀ k, C.junk k < 2 ^ 32) (h : CanRechunk C ps ge X) {cs : List (Meta × Arr)} (hr : Rep C cs ps)
    {parts : List (List Nat × List Nat)} (hP : PartsOk C ge X parts) (hst : ∀ fs, Saved C fs X.indir cs → ∃ lib, startProc C S X fs = .ok (lib, parts) ∧ Ready C S Z X cs fs lib)
    {fs₀ : FS} (hsv : Saved C fs₀ X.indir cs) : ∀ (σ : List Ev) (A D : Nat → Prop) (st : PState), Enabled parts.length A σ → PInv C S Z ps ge X cs parts fs₀ A D st →
      ∃ st', runLoop (procStep C S X) σ st = .ok st' ∧
        PInv C S Z ps ge X cs parts fs₀ (fun j => A j ∨ Ev.start j ∈ σ) (fun n => D n ∨ ∃ j, Ev.part j n ∈ σ) st'
  | [], A, D, st, _, hi => ⟨st, rfl, hi.other, fun j hj => hi.started j (hj.resolve_right (by simp)), hi.ready, fun n hn => hi.done n (hn.resolve_right (by simp))⟩
  | .start j :: σ, A, D, st, he, hi => by
      have hind : ∀ m, st.fs (X.indir, m) = fs₀ (X.indir, m) := hi.other _ fun n _ => Ne.symm (h.dirs n).1
      obtain ⟨lib, s1, s2⟩ := hst st.fs (hsv.frame hind)
      have hi' : PInv C S Z ps ge X cs parts fs₀ (fun k => k = j ∨ A k) D { st with proc := upd st.proc j (some (lib, parts)) } := by
        refine ⟨hi.other, fun k hk => ?_, fun k lib' q hk => ?_, hi.done⟩
        · show ∃ lib', upd st.proc j _ k = _
          unfold upd
          by_cases hkj : k = j
          · rw [if_pos hkj]; exact ⟨lib, rfl⟩
          · rw [if_neg hkj]; exact hi.started k (hk.resolve_left hkj)
        · replace hk : upd st.proc j (some (lib, parts)) k = some (lib', q) := hk
          unfold upd at hk
          by_cases hkj : k = j
          · rw [if_pos hkj] at hk
            cases hk
            exact ⟨rfl, s2⟩
          · rw [if_neg hkj] at hk
            exact hi.ready k lib' q hk
      obtain ⟨st', e1, e2⟩ := phase1 hC hchunk hjunk h hr hP hst hsv σ _ _ _ he hi'
      refine ⟨st', ?_, e2.other, fun k hk => e2.started k ?_, e2.ready, fun n hn => e2.done n ?_⟩
      · simp only [runLoop, procStep, s1, Res.ok_bind]
        exact e1
      · rcases hk with hk | hk
        · exact Or.inl (Or.inr hk)
        · rcases List.mem_cons.1 hk with hk | hk
          · cases hk; exact Or.inl (Or.inl rfl)
          · exact Or.inr hk
      · exact hn.imp_right fun ⟨k, hk⟩ => ⟨k, (List.mem_cons.1 hk).resolve_left (by simp)⟩
  | .part j n :: σ, A, D, st, he, hi => by
      obtain ⟨hA, hn, he⟩ := he
      obtain ⟨lib, hl⟩ := hi.started j hA
      obtain ⟨_, hR⟩ := hi.ready j lib parts hl
      have hp := List.getElem?_eq_getElem hn
      obtain ⟨lib', fs', cs', p1, p2, p3, p4⟩ := part_ok hC hchunk hjunk h hsv.chunky hr hP hR (n := n) (List.getElem_mem hn)
      have hdn := h.dirs n
      have hi' : PInv C S Z ps ge X cs parts fs₀ A (fun k => D k ∨ k = n) { fs := fs', proc := upd st.proc j (some (lib', parts)) } := by
        refine ⟨fun d hd m => ?_, fun k hk => ?_, fun k lib'' q hk => ?_, fun k hk => ?_⟩
        · show fs' (d, m) = _
          rw [p3 d (hd n hn)]; exact hi.other d hd m
        · show ∃ lib', upd st.proc j _ k = _
          unfold upd
          by_cases hkj : k = j
          · rw [if_pos hkj]; exact ⟨lib', rfl⟩
          · rw [if_neg hkj]; exact hi.started k hk
        · replace hk : upd st.proc j (some (lib', parts)) k = some (lib'', q) := hk
          unfold upd at hk
          by_cases hkj : k = j
          · rw [if_pos hkj] at hk
            cases hk
            exact ⟨rfl, p2⟩
          · rw [if_neg hkj] at hk
            obtain ⟨q1, q2⟩ := hi.ready k lib'' q hk
            exact ⟨q1, q2.frame fun m => p3 _ (Ne.symm hdn.1) m⟩
        · by_cases hkn : k = n
          · subst hkn
            exact ⟨_, cs', hp, p4⟩
          · obtain ⟨p, cs'', c1, c2⟩ := hi.done k (hk.resolve_right hkn)
            exact ⟨p, cs'', c1, c2.frame fun m => p3 _ (fun e => hkn ((h.dirs k).2.2 n e)) m⟩
      obtain ⟨st', e1, e2⟩ := phase1 hC hchunk hjunk h hr hP hst hsv σ _ _ _ he hi'
      refine ⟨st', ?_, e2.other, fun k hk => e2.started k ?_, e2.ready, fun k hk => e2.done k ?_⟩
      · simp only [runLoop, procStep, hl, hp, p1, Res.ok_bind]
        exact e1
      · exact hk.imp_right fun hk => (List.mem_cons.1 hk).resolve_left (by simp)
      · rcases hk with hk | ⟨i, hk⟩
        · exact Or.inl (Or.inl hk)
        · rcases List.mem_cons.1 hk with hk | hk
          · cases hk; exact Or.inl (Or.inr rfl)
          · exact Or.inr ⟨i, hk⟩

/-! ### Closing -/

/-- Destroying a library from which was only read changes nothing. -/
theorem close_same (hC : C.Ok) {lib : Lib} {fs : FS} {cs : List (Meta × Arr)} (h : LInv C S Z lib fs cs) (hc : lib.cc.Clean) (hi : fs (lib.idx.dir, .index) = some (indexFile C (cs.map Prod.fst))) :
    lib.destroy C fs = .ok fs := by
  obtain ⟨s, hs⟩ := h.cache
  obtain ⟨cc', fs', e1, _⟩ := flush_ok hC h.chunky.ok hs
  have hf : fs' = fs := (flush_clean hc e1).fs
  unfold Lib.destroy
  rw [e1]
  simp only [Res.ok_bind]
  rw [index_flush_ok h.idx, hf]
  congr 1
  funext p
  unfold FS.set
  split
  · rename_i e; rw [e, hi]
  · rfl

end Verif.Meep
