import Verif.Cache.Props
/-
The cache functions, one by one, as operations on the list of (key, value) pairs (least recently used first); from C17.
-/
namespace Verif.Cache
open Verif Verif.DLL

variable {K V : Type} [DecidableEq K]

/-- The cache `c` of depth `d` holds the list `s`. -/
def CRel (d : Nat) (c : Cache K V) (s : List (K × V)) : Prop := c.depth = d ∧ ∃ free occ, Rel c free occ s

variable {d : Nat} {c : Cache K V} {s : List (K × V)}

theorem CRel.pos (h : CRel d c s) : 0 < d := by
  obtain ⟨rfl, f, o, r⟩ := h
  exact r.pos

theorem CRel.nodup (h : CRel d c s) : (s.map Prod.fst).Nodup := by
  obtain ⟨rfl, f, o, r⟩ := h
  have := r.keys
  rw [r.abs, List.map_map]
  exact this

theorem CRel.contains (h : CRel d c s) (k : K) : contains c k = decide (k ∈ s.map Prod.fst) := by
  obtain ⟨rfl, f, o, r⟩ := h
  rcases step_refines r (.contains k) with ⟨c1, out, s1, out', _, _, h1, h2, h3, _⟩ | ⟨h1, _⟩ | ⟨h1, _⟩
  · simp only [step, Res.ok.injEq, Prod.mk.injEq] at h1
    simp only [lruStep, Res.ok.injEq, Prod.mk.injEq] at h2
    rw [← h1.2, ← h2.2] at h3
    simpa [OutEq] using h3
  · cases h1
  · cases h1

theorem CRel.hasFree (h : CRel d c s) : hasFreeSlot c = decide (s.length < d) := by
  obtain ⟨rfl, f, o, r⟩ := h
  rcases step_refines r .hasFree with ⟨c1, out, s1, out', _, _, h1, h2, h3, _⟩ | ⟨h1, _⟩ | ⟨h1, _⟩
  · simp only [step, Res.ok.injEq, Prod.mk.injEq] at h1
    simp only [lruStep, Res.ok.injEq, Prod.mk.injEq] at h2
    rw [← h1.2, ← h2.2] at h3
    simpa [OutEq] using h3
  · cases h1
  · cases h1

theorem CRel.contained (h : CRel d c s) : (containedElements c).Perm (s.map Prod.fst) := by
  obtain ⟨rfl, f, o, r⟩ := h
  rcases step_refines r .contained with ⟨c1, out, s1, out', _, _, h1, h2, h3, _⟩ | ⟨h1, _⟩ | ⟨h1, _⟩
  · simp only [step, Res.ok.injEq, Prod.mk.injEq] at h1
    simp only [lruStep, Res.ok.injEq, Prod.mk.injEq] at h2
    rw [← h1.2, ← h2.2] at h3
    exact h3
  · cases h1
  · cases h1

theorem CRel.le (h : CRel d c s) : s.length ≤ d := by
  obtain ⟨rfl, f, o, r⟩ := h
  have := r.len
  have h2 := r.abs
  rw [h2, List.length_map, ← this, List.length_append]
  omega

theorem CRel.insertRef (h : CRel d c s) {k : K} (hk : k ∉ s.map Prod.fst) (hl : s.length < d) :
    ∃ r, insertRef c k = .ok r ∧ ∀ v, CRel d (store r.1 r.2 v) (s ++ [(k, v)]) := by
  obtain ⟨rfl, f, o, r⟩ := h
  have key : ∀ v, ∃ q, Cache.insertRef c k = .ok q ∧ CRel c.depth (store q.1 q.2 v) (s ++ [(k, v)]) := by
    intro v
    have hs : lruStep c.depth s (.insert k v) = .ok (s ++ [(k, v)], .unit) := by
      simp only [lruStep]; rw [if_neg]; rintro (h | h)
      · exact hk h
      · omega
    rcases step_refines r (.insert k v) with ⟨c1, out, s1, out', f1, o1, h1, h2, h3, h4, h5⟩ | ⟨_, h2⟩ | ⟨_, h2⟩
    · rw [hs] at h2; cases h2
      simp only [step, insertNoOverwrite] at h1
      cases hq : Cache.insertRef c k with
      | ok q =>
        rw [hq] at h1
        simp only [Res.ok_bind, Res.ok.injEq, Prod.mk.injEq] at h1
        obtain ⟨rfl, _⟩ := h1
        exact ⟨q, rfl, h5, f1, o1, h4⟩
      | _ => rw [hq] at h1; simp [Res.bind] at h1
    · rw [hs] at h2; cases h2
    · rw [hs] at h2; cases h2
  cases s with
  | nil =>
    -- any value will do to get the result of `insertRef`
    obtain ⟨q, hq⟩ : ∃ q, Cache.insertRef c k = .ok q := by
      obtain ⟨q, hq, _⟩ := key (c.payload 0)
      exact ⟨q, hq⟩
    refine ⟨q, hq, fun v => ?_⟩
    obtain ⟨q', hq', h⟩ := key v
    rw [hq] at hq'; cases hq'
    exact h
  | cons p s =>
    obtain ⟨q, hq, _⟩ := key p.2
    refine ⟨q, hq, fun v => ?_⟩
    obtain ⟨q', hq', h⟩ := key v
    rw [hq] at hq'; cases hq'
    exact h

theorem find_of_mem (hn : (s.map Prod.fst).Nodup) {k : K} {v : V} (hm : (k, v) ∈ s) : s.find? (fun p => p.1 = k) = some (k, v) := by
  induction s with
  | nil => cases hm
  | cons p s ih =>
    rw [List.map_cons, List.nodup_cons] at hn
    rw [List.find?_cons]
    rcases List.mem_cons.1 hm with rfl | hm'
    · simp
    · have : p.1 ≠ k := by
        rintro rfl
        exact hn.1 (List.mem_map.2 ⟨_, hm', rfl⟩)
      simp only [this, decide_false]
      exact ih hn.2 hm'

theorem CRel.get (h : CRel d c s) {k : K} {v : V} (hm : (k, v) ∈ s) :
    ∃ r, get c k = .ok r ∧ r.1.payload r.2 = v ∧ CRel d r.1 (keyGone k s ++ [(k, v)]) ∧
      ∀ v', CRel d (store r.1 r.2 v') (keyGone k s ++ [(k, v')]) := by
  have hf := find_of_mem h.nodup hm
  obtain ⟨rfl, f, o, r⟩ := h
  have h1 : lruStep c.depth s (.get k) = .ok (keyGone k s ++ [(k, v)], .val v) := by simp only [lruStep, hf]
  rcases step_refines r (.get k) with ⟨c1, out, s1, out', f1, o1, g1, g2, g3, g4, g5⟩ | ⟨_, g2⟩ | ⟨_, g2⟩
  · rw [h1] at g2; cases g2
    simp only [step] at g1
    cases hq : Cache.get c k with
    | ok q =>
      rw [hq] at g1
      simp only [Res.ok_bind, Res.ok.injEq, Prod.mk.injEq] at g1
      obtain ⟨rfl, rfl⟩ := g1
      refine ⟨q, rfl, by simpa [OutEq] using g3, ⟨g5, f1, o1, g4⟩, fun v' => ?_⟩
      have h1' : lruStep c.depth s (.put k v') = .ok (keyGone k s ++ [(k, v')], .unit) := by simp only [lruStep, hf]
      rcases step_refines r (.put k v') with ⟨c1, out, s1, out', f1, o1, g1, g2, g3, g4, g5⟩ | ⟨_, g2⟩ | ⟨_, g2⟩
      · rw [h1'] at g2; cases g2
        simp only [step, hq, Res.ok_bind, Res.ok.injEq, Prod.mk.injEq] at g1
        obtain ⟨rfl, _⟩ := g1
        exact ⟨g5, f1, o1, g4⟩
      · rw [h1'] at g2; cases g2
      · rw [h1'] at g2; cases g2
    | _ => rw [hq] at g1; simp [Res.bind] at g1
  · rw [h1] at g2; cases g2
  · rw [h1] at g2; cases g2

theorem CRel.evict (h : CRel d c s) {k : K} {v : V} (hm : (k, v) ∈ s) :
    ∃ r, evict c k = .ok r ∧ r.1.payload r.2 = v ∧ CRel d r.1 (keyGone k s) := by
  have hf := find_of_mem h.nodup hm
  obtain ⟨rfl, f, o, r⟩ := h
  have h1 : lruStep c.depth s (.evict k) = .ok (keyGone k s, .val v) := by simp only [lruStep, hf]
  rcases step_refines r (.evict k) with ⟨c1, out, s1, out', f1, o1, g1, g2, g3, g4, g5⟩ | ⟨_, g2⟩ | ⟨_, g2⟩
  · rw [h1] at g2; cases g2
    simp only [step] at g1
    cases hq : Cache.evict c k with
    | ok q =>
      rw [hq] at g1
      simp only [Res.ok_bind, Res.ok.injEq, Prod.mk.injEq] at g1
      obtain ⟨rfl, rfl⟩ := g1
      exact ⟨q, rfl, by simpa [OutEq] using g3, g5, f1, o1, g4⟩
    | _ => rw [hq] at g1; simp [Res.bind] at g1
  · rw [h1] at g2; cases g2
  · rw [h1] at g2; cases g2

theorem CRel.evictOldest {p : K × V} (h : CRel d c (p :: s)) (hl : (p :: s).length = d) :
    ∃ r, evictOldest c = .ok r ∧ r.1.payload r.2 = p.2 ∧ CRel d r.1 s := by
  obtain ⟨rfl, f, o, r⟩ := h
  have h1 : lruStep c.depth (p :: s) .evictOldest = .ok (s, .val p.2) := by simp only [lruStep]; rw [if_neg (by omega)]
  rcases step_refines r .evictOldest with ⟨c1, out, s1, out', f1, o1, g1, g2, g3, g4, g5⟩ | ⟨_, g2⟩ | ⟨_, g2⟩
  · rw [h1] at g2; cases g2
    simp only [step] at g1
    cases hq : Cache.evictOldest c with
    | ok q =>
      rw [hq] at g1
      simp only [Res.ok_bind, Res.ok.injEq, Prod.mk.injEq] at g1
      obtain ⟨rfl, rfl⟩ := g1
      exact ⟨q, rfl, by simpa [OutEq] using g3, g5, f1, o1, g4⟩
    | _ => rw [hq] at g1; simp [Res.bind] at g1
  · rw [h1] at g2; cases g2
  · rw [h1] at g2; cases g2

theorem CRel.construct (d : Nat) (hd : 0 < d) (v0 : V) (k0 : K) : ∃ c, construct d v0 k0 = .ok c ∧ CRel d c ([] : List (K × V)) := by
  obtain ⟨c, h1, h2, h3⟩ := construct_rel d hd v0 k0
  exact ⟨c, h1, h2, _, _, h3⟩

theorem mem_keyGone {k : K} {p : K × V} : p ∈ keyGone k s ↔ p ∈ s ∧ p.1 ≠ k := by
  unfold keyGone; simp

theorem keyGone_keys {k : K} : k ∉ (keyGone k s).map Prod.fst := by
  intro h
  obtain ⟨p, hp, rfl⟩ := List.mem_map.1 h
  exact (mem_keyGone.1 hp).2 rfl

end Verif.Cache
