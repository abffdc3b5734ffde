import Verif.Meep.RechunkRun
/-
Merging the partitions.
-/
namespace Verif.Meep
open Verif Verif.ND Verif.Dist Verif.Tree Verif.Rebuild Verif.Ops

variable {C : Cfg} {S : Sorter} {Z : SlabSize} {ps : List Piece} {ge : List Nat} {X : Rech}

theorem OutChunk.renumber {c : Meta × Arr} (h : OutChunk C ps ge X c) (k : Nat) : OutChunk C ps ge X ({ c.1 with id := k }, c.2) := ⟨h.box, h.ovl, h.content⟩

theorem pairwise_get {α : Type} {R : α → α → Prop} {l : List α} (h : l.Pairwise R) {i j : Nat} {x y : α} (hx : l[i]? = some x) (hy : l[j]? = some y) (hij : i < j) : R x y := by
  obtain ⟨h1, rfl⟩ := List.getElem?_eq_some_iff.1 hx
  obtain ⟨h2, rfl⟩ := List.getElem?_eq_some_iff.1 hy
  exact List.pairwise_iff_getElem.1 h i j h1 h2 hij

/-- Disjoint chunks of the grid are not too many. -/
theorem CanRechunk.count (h : CanRechunk C ps ge X) {cs : List (Meta × Arr)} (hb : ∀ c ∈ cs, OutChunk C ps ge X c) (hd : Disj cs) : cs.length < 2 ^ 64 := by
  have h1 := h.shapeLen; have h2 := h.geLen
  have k1 := boxes_length (b := List.replicate C.dims 0) (e := X.shape ge) (c := X.req) (boxes := cs.map fun c => (c.1.start, c.1.stop)) (fun p hp => by
    obtain ⟨c, hc, rfl⟩ := List.mem_map.1 hp
    exact (hb c hc).box) (by simp; omega) (by rw [List.pairwise_map]; exact hd)
  have h7 := h.vol.2
  rw [← boxVolume_eq (by simp; omega)] at h7
  have hs : elemLoop (List.replicate C.dims 0) (X.shape ge) ⊆ elemLoop (List.replicate C.dims 0) ge := by
    intro i hi
    rw [mem_elemLoop] at hi ⊢
    obtain ⟨i1, i2, i3⟩ := hi
    refine ⟨i1, by omega, fun d hd => ?_⟩
    have := i3 d hd
    rw [h.shapeD] at this
    omega
  have := (List.Nodup.subperm (elemLoop_nodup _ _) hs).length_le
  rw [List.length_map] at k1
  omega

/-- The library and the files when the first `k` partitions have been merged. -/
structure Merging (C : Cfg) (S : Sorter) (Z : SlabSize) (ps : List Piece) (ge : List Nat) (X : Rech) (parts : List (List Nat × List Nat)) (fs₀ : FS) (k : Nat) (lib : Lib) (fs : FS)
    (cs : List (Meta × Arr)) : Prop where
  inv : LInv (outCfg C) S Z lib fs cs
  dir : lib.idx.dir = X.out
  fresh : ∀ c ∈ cs, c.1.id < lib.idx.nextId
  next : lib.idx.nextId = cs.length
  made : ∀ c ∈ cs, OutChunk C ps ge X c
  origin : ∀ c ∈ cs, ∃ n < k, ∃ p, parts[n]? = some p ∧ (∀ i, InBox c.1.start c.1.stop i → InBox p.1 p.2 (addVec i X.pre)) ∧ (c.1.path = [] ∨ ∃ l, c.1.path = X.uuid n l)
  cover : ∀ n < k, ∀ p, parts[n]? = some p → ∀ i, i.length = C.dims → InBox p.1 p.2 (addVec i X.pre) → ∃ c ∈ cs, InBox c.1.start c.1.stop i
  todo : ∀ n, k ≤ n → n < parts.length → ∃ p cs', parts[n]? = some p ∧ PartFiles C ps ge X n p fs cs'
  gone : ∀ n < k, ∀ m, fs (X.dir n, m) = none
  other : ∀ d, d ≠ X.out → (∀ n < parts.length, d ≠ X.dir n) → ∀ m, fs (d, m) = fs₀ (d, m)
  files : ∀ m, fs (X.out, .chunk m) ≠ none → ∃ n l, m = X.uuid n l

theorem merging (hC : C.Ok) (h : CanRechunk C ps ge X) {parts : List (List Nat × List Nat)} (hP : PartsOk C ge X parts) {fs₀ : FS} : ∀ (r k : Nat) (lib : Lib) (fs : FS) (cs : List (Meta × Arr)),
    k + r = parts.length → Merging C S Z ps ge X parts fs₀ k lib fs cs →
    ∃ lib' fs' cs', runLoop (fun d (r : Lib × FS) => r.1.import (outCfg C) S r.2 d true) ((List.range' k r).map X.dir) (lib, fs) = .ok (lib', fs') ∧
      Merging C S Z ps ge X parts fs₀ parts.length lib' fs' cs'
  | 0, k, lib, fs, cs, hk, hm => ⟨lib, fs, cs, rfl, by rw [← hk]; exact hm⟩
  | r + 1, k, lib, fs, cs, hk, hm => by
      have hC' := outCfg_ok hC
      obtain ⟨p, cs', hp, hf⟩ := hm.todo k (Nat.le_refl k) (by omega)
      have hdk := h.dirs k
      have hdisj : ∀ c ∈ cs, ∀ c' ∈ cs', DisjointBox c.1.start c.1.stop c'.1.start c'.1.stop := by
        intro c hc c' hc' i hi
        obtain ⟨n, hn, q, hq, o1, _⟩ := hm.origin c hc
        exact pairwise_get hP.disj hq hp hn _ ⟨o1 i hi.1, hf.inside c' hc' i hi.2⟩
      have hcount : (cs ++ cs').length < 2 ^ 64 := by
        refine h.count (fun c hc => ?_) ?_
        · rcases List.mem_append.1 hc with hc | hc
          · exact hm.made c hc
          · exact hf.made c hc
        · exact List.pairwise_append.2 ⟨hm.inv.chunky.disj, hf.saved.chunky.disj, hdisj⟩
      rw [List.length_append] at hcount
      have himp : ImpOk (outCfg C) fs lib.idx.dir (X.dir k) lib.idx.nextId cs cs' := by
        refine ⟨by rw [hm.dir]; exact hdk.2.1, hm.fresh, by rw [hm.next]; exact hcount, hdisj, fun c hc hpath => ?_⟩
        obtain ⟨n, hn, q, hq, _, o2⟩ := hm.origin c hc
        obtain ⟨l, hl⟩ := o2.resolve_left hpath
        constructor
        · by_contra hne
          obtain ⟨l', hl'⟩ := hf.files _ hne
          have := (h.inj _ _ _ _ (hl.symm.trans hl')).1
          omega
        · intro c' hc' e
          rcases hf.path c' hc' with q | ⟨l', hl'⟩
          · exact hpath (e.trans q)
          · have := (h.inj _ _ _ _ (hl.symm.trans (e.trans hl'))).1
            omega
      obtain ⟨lib1, fs1, g1, g2, g3, g4, _, g6, g7, _, g9⟩ := importLib_ok hC' hm.inv hf.saved himp true
      have g6 := g6 rfl
      rw [hm.dir] at g7 g9
      have hren : ∀ c ∈ numbered lib.idx.nextId cs', ∃ c₀ ∈ cs', ∃ id, lib.idx.nextId ≤ id ∧ id < lib.idx.nextId + cs'.length ∧ c = ({ c₀.1 with id := id }, c₀.2) := by
        intro c hc
        obtain ⟨l, c₀, h1, h2⟩ := numbered_mem hc
        exact ⟨c₀, List.mem_of_getElem? h1, _, by omega, by have := lt_of_get? h1; omega, h2⟩
      have hm1 : Merging C S Z ps ge X parts fs₀ (k + 1) lib1 fs1 (cs ++ numbered lib.idx.nextId cs') := by
        refine ⟨g2, by rw [g4]; exact hm.dir, fun c hc => ?_, ?_, fun c hc => ?_, fun c hc => ?_, fun n hn q hq i hi hiq => ?_, fun n hn hn' => ?_, fun n hn m => ?_, fun d hd hd' m => ?_, fun m hm' => ?_⟩
        · rw [g3]
          rcases List.mem_append.1 hc with hc | hc
          · have := hm.fresh c hc; omega
          · obtain ⟨c₀, _, id, _, h2, rfl⟩ := hren c hc
            exact h2
        · rw [g3, hm.next, List.length_append]; simp [numbered]
        · rcases List.mem_append.1 hc with hc | hc
          · exact hm.made c hc
          · obtain ⟨c₀, h1, id, _, h2, rfl⟩ := hren c hc
            exact (hf.made c₀ h1).renumber id
        · rcases List.mem_append.1 hc with hc | hc
          · obtain ⟨n, hn, q, hq⟩ := hm.origin c hc
            exact ⟨n, by omega, q, hq⟩
          · obtain ⟨c₀, h1, id, _, h2, rfl⟩ := hren c hc
            exact ⟨k, by omega, p, hp, hf.inside c₀ h1, hf.path c₀ h1⟩
        · by_cases hnk : n = k
          · subst hnk
            rw [hp] at hq; cases hq
            obtain ⟨c, hc, hci⟩ := hf.cover i hi hiq
            obtain ⟨l, hl⟩ := List.getElem?_of_mem hc
            refine ⟨({ c.1 with id := lib.idx.nextId + l }, c.2), List.mem_append.2 (Or.inr (List.mem_of_getElem? (i := l) ?_)), hci⟩
            rw [numbered_get, hl]; rfl
          · obtain ⟨c, hc, hci⟩ := hm.cover n (by omega) q hq i hi hiq
            exact ⟨c, List.mem_append.2 (Or.inl hc), hci⟩
        · obtain ⟨q, cs'', q1, q2⟩ := hm.todo n (by omega) hn'
          exact ⟨q, cs'', q1, q2.frame fun m => g7 _ (h.dirs n).2.1 fun e => by have := (h.dirs n).2.2 k e; omega⟩
        · by_cases hnk : n = k
          · subst hnk; exact g6 m
          · rw [g7 _ (h.dirs n).2.1 fun e => hnk ((h.dirs n).2.2 k e)]
            exact hm.gone n (by omega) m
        · rw [g7 _ hd (hd' k (by omega))]
          exact hm.other d hd hd' m
        · rcases g9 m hm' with q | q
          · obtain ⟨l, hl⟩ := hf.files m q
            exact ⟨k, l, hl⟩
          · exact hm.files m q
      obtain ⟨lib2, fs2, cs2, e1, e2⟩ := merging hC h hP r (k + 1) lib1 fs1 _ (by omega) hm1
      refine ⟨lib2, fs2, cs2, ?_, e2⟩
      rw [List.range'_succ, List.map_cons]
      simp only [runLoop, g1, Res.ok_bind]
      exact e1

/-- The merged result in the output directory. -/
structure Result (C : Cfg) (ps : List Piece) (ge : List Nat) (X : Rech) (cs : List (Meta × Arr)) (fs : FS) : Prop where
  saved : Saved C fs X.out cs
  made : ∀ c ∈ cs, OutChunk C ps ge X c
  cover : ∀ i, InBox (List.replicate C.dims 0) (X.shape ge) i ↔ ∃ c ∈ cs, InBox c.1.start c.1.stop i
  path : ∀ c ∈ cs, c.1.path = [] ∨ ∃ n l, c.1.path = X.uuid n l
  files : ∀ m, fs (X.out, .chunk m) ≠ none → ∃ n l, m = X.uuid n l

theorem Result.frame {cs : List (Meta × Arr)} {fs fs' : FS} (h : Result C ps ge X cs fs) (hf : ∀ m, fs' (X.out, m) = fs (X.out, m)) : Result C ps ge X cs fs' :=
  ⟨h.saved.frame hf, h.made, h.cover, h.path, fun m hm => h.files m (by rw [← hf]; exact hm)⟩

theorem CanRechunk.shift (h : CanRechunk C ps ge X) {i : List Nat} (hi : i.length = C.dims) : InBox (List.replicate C.dims 0) (X.shape ge) i ↔ InBox X.pre (X.stop ge) (addVec i X.pre) := by
  have h1 := h.preLen; have h4 := h.shapeLen; have h5 := h.stopLen
  have hl : (addVec i X.pre).length = C.dims := by unfold addVec; rw [List.length_zipWith]; omega
  constructor
  · rintro ⟨a1, a2, a3⟩
    refine ⟨by omega, by omega, fun d hd => ?_⟩
    have := a3 d (by omega)
    rw [h.shapeD] at this
    rw [getD_addVec (by omega), h.stopD]; omega
  · rintro ⟨a1, a2, a3⟩
    refine ⟨by simp; omega, by omega, fun d hd => ?_⟩
    have := a3 d (by omega)
    rw [getD_addVec (by omega), h.stopD] at this
    rw [zeros_getD, h.shapeD]; omega

theorem mergeParts_ok (Z : SlabSize) (hC : C.Ok) (hchunk : C.chunk = (outCfg C).chunk) (h : CanRechunk C ps ge X) {parts : List (List Nat × List Nat)} (hP : PartsOk C ge X parts) {fs : FS}
    (hf : ∀ n < parts.length, ∃ p cs', parts[n]? = some p ∧ PartFiles C ps ge X n p fs cs') :
    ∃ fs' cs, mergeParts C S X.out ((List.range parts.length).map X.dir) fs = .ok fs' ∧ Result C ps ge X cs fs' ∧
      (∀ n < parts.length, ∀ m, fs' (X.dir n, m) = none) ∧ (∀ d, d ≠ X.out → (∀ n < parts.length, d ≠ X.dir n) → ∀ m, fs' (d, m) = fs (d, m)) := by
  have hC' := outCfg_ok hC
  obtain ⟨lib, o1, o2, o3, o4⟩ := open_new (C := outCfg C) (S := S) (Z := Z) (fs := emptyDir fs X.out) (dir := X.out) (by unfold emptyDir; rw [if_pos rfl]) (List.replicate C.dims 1)
  have hm0 : Merging C S Z ps ge X parts fs 0 lib (emptyDir fs X.out) [] := by
    refine ⟨o4, o2, fun c hc => (by cases hc), o3, fun c hc => (by cases hc), fun c hc => (by cases hc), fun n hn => absurd hn (by omega), fun n _ hn => ?_, fun n hn => absurd hn (by omega),
      fun d hd _ m => by unfold emptyDir; rw [if_neg hd], fun m hm => absurd (by unfold emptyDir; rw [if_pos rfl]) hm⟩
    obtain ⟨p, cs', q1, q2⟩ := hf n hn
    exact ⟨p, cs', q1, q2.frame fun m => by unfold emptyDir; rw [if_neg (h.dirs n).2.1]⟩
  obtain ⟨lib', fs', cs, e1, e2⟩ := merging hC h hP parts.length 0 lib _ [] (by omega) hm0
  rw [← List.range_eq_range'] at e1
  obtain ⟨fs2, g1, g2, g3⟩ := destroy_ok hC' e2.inv
  rw [e2.dir] at g2 g3
  have hoth : ∀ d m, d ≠ X.out → fs2 (d, m) = fs' (d, m) := fun d m hd => g3 (d, m) (fun e => hd (Prod.ext_iff.1 e).1) (fun k m' a' _ _ e => hd (Prod.ext_iff.1 e).1)
  have hpath : ∀ c ∈ cs, c.1.path = [] ∨ ∃ n l, c.1.path = X.uuid n l := by
    intro c hc
    obtain ⟨n, _, p, _, _, o⟩ := e2.origin c hc
    exact o.imp_right fun ⟨l, hl⟩ => ⟨n, l, hl⟩
  refine ⟨fs2, cs, ?_, ⟨?_, e2.made, fun i => ⟨fun hi => ?_, fun ⟨c, hc, hi⟩ => ?_⟩, hpath, fun m hm => ?_⟩, fun n hn m => ?_, fun d hd hd' m => ?_⟩
  · unfold mergeParts
    rw [o1]
    simp only [Res.ok_bind]
    rw [e1]
    simp only [Res.ok_bind]
    exact g1
  · rw [outCfg_eq hchunk] at g2
    exact Saved.size g2
  · have hil : i.length = C.dims := by have := hi.1; simpa using this
    obtain ⟨p, hp, hpi⟩ := (hP.cover _).1 ((h.shift hil).1 hi)
    obtain ⟨n, hn⟩ := List.getElem?_of_mem hp
    exact e2.cover n (lt_of_get? hn) p hn i hil hpi
  · obtain ⟨b1, b2, b3⟩ := (e2.made c hc).box
    rw [List.length_replicate] at b1 b2 b3
    obtain ⟨i1, i2, i3⟩ := hi
    have hsl := h.shapeLen
    refine ⟨by simp; omega, by omega, fun d hd => ?_⟩
    have := i3 d hd
    have := b3 d (by omega)
    rw [zeros_getD] at this ⊢
    omega
  · by_cases hc : ∃ c ∈ cs, c.1.path ≠ [] ∧ c.1.path = m
    · obtain ⟨c, hc, c1, c2⟩ := hc
      obtain ⟨n, l, q⟩ := (hpath c hc).resolve_left c1
      exact ⟨n, l, c2.symm.trans q⟩
    · rw [g3 _ (fun e => by cases (Prod.ext_iff.1 e).2) (fun k m' a' hk hpath e => hc ⟨(m', a'), (chunksOf_mem hk).1, hpath, by
        have h9 : Name.chunk m = Name.chunk m'.path := (Prod.ext_iff.1 e).2
        injection h9 with h9
        exact h9.symm⟩)] at hm
      exact e2.files m hm
  · rw [hoth _ _ (h.dirs n).2.1]; exact e2.gone n hn m
  · rw [hoth _ _ hd]; exact e2.other d hd hd' m

end Verif.Meep
