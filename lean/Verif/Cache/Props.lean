import Verif.Cache.Model
/-
C17: the cache behaves like a bounded least-recently-used map.
-/
namespace Verif.Cache
open Verif Verif.DLL

variable {K V : Type} [DecidableEq K]

/-! ### Specification: a list of (key, value) pairs, least recently used first. -/

def keyGone (k : K) (s : List (K × V)) : List (K × V) := s.filter fun p => p.1 ≠ k

def lruStep (depth : Nat) (s : List (K × V)) : Op K V → Res (List (K × V) × Out K V)
  | .hasFree => .ok (s, .bool (decide (s.length < depth)))
  | .contains k => .ok (s, .bool (decide (k ∈ s.map Prod.fst)))
  | .contained => .ok (s, .keys (s.map Prod.fst))
  | .insert k v => if k ∈ s.map Prod.fst ∨ s.length = depth then .abort else .ok (s ++ [(k, v)], .unit)
  | .get k =>
    match s.find? fun p => p.1 = k with
    | none => .throw
    | some p => .ok (keyGone k s ++ [p], .val p.2)
  | .put k v =>
    match s.find? fun p => p.1 = k with
    | none => .throw
    | some _ => .ok (keyGone k s ++ [(k, v)], .unit)
  | .evict k =>
    match s.find? fun p => p.1 = k with
    | none => .abort
    | some p => .ok (keyGone k s, .val p.2)
  | .evictOldest =>
    if s.length < depth then .abort
    else match s with
      | [] => .abort
      | p :: s => .ok (s, .val p.2)
  | .oldToNew => .ok (s, .vals (s.map Prod.snd))
  | .newToOld => .ok (s, .vals (s.map Prod.snd).reverse)

def lruRun (depth : Nat) (s : List (K × V)) : List (Op K V) → List (Out K V) × Res (List (K × V))
  | [] => ([], .ok s)
  | o :: os =>
    match lruStep depth s o with
    | .ok (s1, out) => let r := lruRun depth s1 os; (out :: r.1, r.2)
    | .abort => ([], .abort)
    | .throw => ([], .throw)
    | .ub => ([], .ub)
    | .diverge => ([], .diverge)

/-- Returned values agree; the order in which `contained_elements` lists the keys is not specified. -/
def OutEq : Out K V → Out K V → Prop
  | .keys l, .keys l' => l.Perm l'
  | a, b => a = b

/-- Returned values agree call by call. -/
inductive OutsEq : List (Out K V) → List (Out K V) → Prop where
  | nil : OutsEq [] []
  | cons {a b l l'} : OutEq a b → OutsEq l l' → OutsEq (a :: l) (b :: l')

/-! ### The invariant -/

structure Rel (c : Cache K V) (free occ : List Nat) (s : List (K × V)) : Prop where
  dll : IsDLL c.next c.prev c.oldest c.newest (free ++ occ)
  len : (free ++ occ).length = c.depth
  pos : 0 < c.depth
  isFree : ∀ x ∈ free, c.occupied x = false
  isOcc : ∀ x ∈ occ, c.occupied x = true
  abs : s = occ.map fun x => (c.index x, c.payload x)
  acc : c.accessor.Perm (occ.map fun x => (c.index x, x))
  keys : (occ.map c.index).Nodup

omit [DecidableEq K] in
theorem map_upd_notMem {β : Type} (f : Nat → β) {a : Nat} {b : β} : ∀ {l : List Nat}, a ∉ l → l.map (upd f a b) = l.map f
  | [], _ => rfl
  | x :: l, h => by
      rw [List.map_cons, List.map_cons, upd_ne _ _ (by rintro rfl; simp at h), map_upd_notMem f (by simp at h; exact h.2)]

theorem dll_congr_fun {next prev next' prev' : Nat → Option Nat} {f l f' l' : Option Nat} {L : List Nat}
    (h : IsDLL next prev f l L) (hf : f' = f) (hl : l' = l) (hn : ∀ x ∈ L, next' x = next x) (hp : ∀ x ∈ L, prev' x = prev x) :
    IsDLL next' prev' f' l' L := by subst hf; subst hl; exact h.congr hn hp

/-- `mark_as_newest` moves the element to the back of the list and changes nothing else. -/
theorem markAsNewest_spec {c : Cache K V} {a b : List Nat} {x : Nat}
    (h : IsDLL c.next c.prev c.oldest c.newest (a ++ x :: b)) :
    ∃ c1, markAsNewest c x = .ok c1 ∧ IsDLL c1.next c1.prev c1.oldest c1.newest (a ++ b ++ [x]) ∧
      c1.depth = c.depth ∧ c1.accessor = c.accessor ∧ c1.payload = c.payload ∧ c1.index = c.index ∧
      c1.occupied = c.occupied := by
  have hnx := h.next_of
  have hpx := h.prev_of
  cases b with
  | nil =>
    refine ⟨c, ?_, by simpa using h, rfl, rfl, rfl, rfl, rfl⟩
    rw [markAsNewest, hnx]; rfl
  | cons n b =>
    have hnd := h.nodup
    have hxn : x ∉ a ++ n :: b := by
      rw [List.nodup_append, List.nodup_cons] at hnd
      intro hm
      rcases List.mem_append.1 hm with hm | hm
      · exact hnd.2.2 x hm x (by simp) rfl
      · exact hnd.2.1.1 hm
    have hne : x ≠ n := by rintro rfl; simp at hxn
    have hnew : c.newest = (a ++ n :: b).getLast? := by
      rw [h.last, getLast?_append_cons, getLast?_append_cons, List.getLast?_cons_cons]
    obtain ⟨m, hm⟩ : ∃ m, (a ++ n :: b).getLast? = some m := by
      cases hg : (a ++ n :: b).getLast? with
      | none => simp at hg
      | some m => exact ⟨m, rfl⟩
    have hmx : m ≠ x := by rintro rfl; exact hxn (List.mem_of_getLast? hm)
    have hrem := (h.remove).pushBack (x := x) hxn
    have hp1 : upd c.prev n (c.prev x) x = a.getLast? := by rw [upd_ne _ _ hne, hpx]
    unfold markAsNewest
    rw [hnx]
    simp only [List.head?_cons]
    rw [hp1, hnew, hm]
    refine ⟨_, rfl, ?_, rfl, rfl, rfl, rfl, rfl⟩
    refine dll_congr_fun hrem ?_ rfl ?_ ?_
    · -- oldest
      cases ha : a.getLast? with
      | none =>
        simp only [if_true]
        rw [List.getLast?_eq_none_iff] at ha
        subst ha
        simp [hnx]
      | some p => simp [hm]
    · intro y _
      simp only [hm, updO, List.head?_cons]
      by_cases hym : y = m
      · subst hym; rw [upd_same, upd_ne _ _ hmx, upd_same]
      · rw [upd_ne _ _ hym]
        by_cases hyx : y = x
        · subst hyx; rw [upd_same, upd_same]
        · rw [upd_ne _ _ hyx, upd_ne _ _ hyx, upd_ne _ _ hym]
          cases ha : a.getLast? with
          | none => rfl
          | some p => simp only [hnx, List.head?_cons]
    · intro y _
      simp only [hm, updO, List.head?_cons, hpx]

/-- `mark_as_oldest` moves the element to the front of the list and changes nothing else. -/
theorem markAsOldest_spec {c : Cache K V} {a b : List Nat} {x : Nat}
    (h : IsDLL c.next c.prev c.oldest c.newest (a ++ x :: b)) :
    ∃ c1, markAsOldest c x = .ok c1 ∧ IsDLL c1.next c1.prev c1.oldest c1.newest (x :: (a ++ b)) ∧
      c1.depth = c.depth ∧ c1.accessor = c.accessor ∧ c1.payload = c.payload ∧ c1.index = c.index ∧
      c1.occupied = c.occupied := by
  have hnx := h.next_of
  have hpx := h.prev_of
  rcases List.eq_nil_or_concat a with rfl | ⟨a', p, rfl⟩
  · refine ⟨c, ?_, by simpa using h, rfl, rfl, rfl, rfl, rfl⟩
    rw [markAsOldest, hpx]; rfl
  · rw [List.concat_eq_append] at *
    have hnd := h.nodup
    have hxn : x ∉ (a' ++ [p]) ++ b := by
      rw [List.nodup_append, List.nodup_cons] at hnd
      intro hm
      rcases List.mem_append.1 hm with hm | hm
      · exact hnd.2.2 x hm x (by simp) rfl
      · exact hnd.2.1.1 hm
    have hne : x ≠ p := by rintro rfl; simp at hxn
    have hold : c.oldest = ((a' ++ [p]) ++ b).head? := by
      rw [h.first]; cases a' <;> rfl
    obtain ⟨o, ho⟩ : ∃ o, ((a' ++ [p]) ++ b).head? = some o := by
      cases a' with
      | nil => exact ⟨p, rfl⟩
      | cons q a' => exact ⟨q, rfl⟩
    have hox : o ≠ x := by rintro rfl; exact hxn (List.mem_of_head? ho)
    have hrem := (h.remove).pushFront (x := x) hxn
    have hlast : (a' ++ [p]).getLast? = some p := by simp
    have hn1 : upd c.next p (c.next x) x = b.head? := by rw [upd_ne _ _ hne, hnx]
    unfold markAsOldest
    rw [hpx, hlast]
    simp only []
    rw [hn1, hold, ho]
    refine ⟨_, rfl, ?_, rfl, rfl, rfl, rfl, rfl⟩
    refine dll_congr_fun hrem rfl ?_ ?_ ?_
    · cases hb : b.head? with
      | none =>
        simp only [ho]
        simp [hlast]
      | some q => simp [ho]
    · intro y _
      simp only [ho, updO, hlast, hnx]
    · intro y _
      simp only [ho, updO]
      by_cases hyo : y = o
      · subst hyo; rw [upd_same, upd_ne _ _ hox, upd_same]
      · rw [upd_ne _ _ hyo]
        by_cases hyx : y = x
        · subst hyx; rw [upd_same, upd_same]
        · rw [upd_ne _ _ hyx, upd_ne _ _ hyx, upd_ne _ _ hyo]
          cases hb : b.head? with
          | none => rfl
          | some q => simp only [hlast]

theorem find_map {c : Cache K V} : ∀ (occ : List Nat) (k : K), (occ.map c.index).Nodup → ∀ x ∈ occ, c.index x = k →
    ∃ a b, occ = a ++ x :: b ∧ k ∉ a.map c.index ∧ k ∉ b.map c.index := by
  intro occ k hn x hx hk
  obtain ⟨a, b, rfl⟩ := List.append_of_mem hx
  refine ⟨a, b, rfl, ?_, ?_⟩
  · rw [List.map_append, List.nodup_append] at hn
    intro hm
    exact hn.2.2 k hm k (by simp [hk]) rfl
  · rw [List.map_append, List.nodup_append, List.map_cons, List.nodup_cons, hk] at hn
    exact hn.2.1.1

theorem keyGone_none {k : K} {s : List (K × V)} (h : k ∉ s.map Prod.fst) : keyGone k s = s := by
  unfold keyGone
  rw [List.filter_eq_self]
  intro p hp
  simp only [decide_eq_true_eq]
  rintro rfl
  exact h (List.mem_map_of_mem hp)

theorem keyGone_split {k : K} {a b : List (K × V)} {p : K × V} (hp : p.1 = k) (ha : k ∉ a.map Prod.fst)
    (hb : k ∉ b.map Prod.fst) : keyGone k (a ++ p :: b) = a ++ b := by
  have e1 := keyGone_none ha
  have e2 := keyGone_none hb
  unfold keyGone at *
  rw [List.filter_append, e1, List.filter_cons_of_neg (by simp [hp]), e2]

theorem find_split {k : K} {a b : List (K × V)} {p : K × V} (hp : p.1 = k) (ha : k ∉ a.map Prod.fst) :
    (a ++ p :: b).find? (fun q => q.1 = k) = some p := by
  induction a with
  | nil => simp [hp]
  | cons q a ih =>
    simp only [List.map_cons, List.mem_cons, not_or] at ha
    rw [List.cons_append, List.find?_cons, decide_eq_false (fun e => ha.1 e.symm)]
    exact ih ha.2

theorem mFind_iff {m : List (K × Nat)} (hn : (m.map Prod.fst).Nodup) {k : K} {x : Nat} :
    mFind m k = some x ↔ (k, x) ∈ m := by
  unfold mFind
  induction m with
  | nil => simp
  | cons p m ih =>
    rw [List.map_cons, List.nodup_cons] at hn
    rw [List.find?_cons]
    by_cases hp : p.1 = k
    · rw [decide_eq_true hp]
      simp only [Option.map_some, Option.some.injEq, List.mem_cons]
      constructor
      · rintro rfl; left; rw [← hp]
      · rintro (h | h)
        · rw [← h]
        · exact absurd (List.mem_map_of_mem (f := Prod.fst) h) (by rw [← hp]; exact hn.1)
    · rw [decide_eq_false hp]
      simp only [ih hn.2, List.mem_cons]
      constructor
      · exact Or.inr
      · rintro (h | h)
        · rw [← h] at hp; exact absurd rfl hp
        · exact h

theorem mErase_perm {m m' : List (K × Nat)} (h : m.Perm m') (k : K) : (mErase m k).Perm (mErase m' k) := h.filter _

variable {c : Cache K V} {free occ : List Nat} {s : List (K × V)}

theorem Rel.accKeys (r : Rel c free occ s) : (c.accessor.map Prod.fst).Nodup := by
  have := r.acc.map Prod.fst
  rw [List.map_map] at this
  exact (this.nodup_iff).2 r.keys

theorem Rel.find_some (r : Rel c free occ s) {k : K} {x : Nat} : mFind c.accessor k = some x ↔ x ∈ occ ∧ c.index x = k := by
  rw [mFind_iff r.accKeys, r.acc.mem_iff, List.mem_map]
  constructor
  · rintro ⟨y, hy, he⟩
    simp only [Prod.mk.injEq] at he
    obtain ⟨e1, rfl⟩ := he
    exact ⟨hy, e1⟩
  · rintro ⟨hx, he⟩; exact ⟨x, hx, by rw [he]⟩

theorem Rel.find_none (r : Rel c free occ s) {k : K} : mFind c.accessor k = none ↔ k ∉ s.map Prod.fst := by
  have e : s.map Prod.fst = occ.map c.index := by rw [r.abs, List.map_map]; rfl
  rw [e]
  constructor
  · intro h hm
    obtain ⟨x, hx, hk⟩ := List.mem_map.1 hm
    rw [r.find_some.2 ⟨hx, hk⟩] at h; cases h
  · intro h
    cases hf : mFind c.accessor k with
    | none => rfl
    | some x =>
      have := r.find_some.1 hf
      exact absurd (List.mem_map.2 ⟨x, this.1, this.2⟩) h

theorem Rel.lens (r : Rel c free occ s) : s.length = occ.length ∧ c.accessor.length = occ.length := by
  refine ⟨by rw [r.abs, List.length_map], by rw [r.acc.length_eq, List.length_map]⟩

/-- Moving an occupied element to the newest position. -/
theorem Rel.touch (r : Rel c free occ s) {k : K} {x : Nat} (hf : mFind c.accessor k = some x) :
    ∃ c1 occ1, markAsNewest c x = .ok c1 ∧ Rel c1 free occ1 (keyGone k s ++ [(k, c.payload x)]) ∧
      s.find? (fun p => p.1 = k) = some (k, c.payload x) ∧ c1.payload = c.payload ∧ ∃ o, occ1 = o ++ [x] ∧ x ∉ o ∧
      ∀ v, (o.map fun y => (c1.index y, c1.payload y)) ++ [(k, v)] = keyGone k s ++ [(k, v)] := by
  obtain ⟨hx, hk⟩ := r.find_some.1 hf
  obtain ⟨a, b, rfl, ha, hb⟩ := find_map occ k r.keys x hx hk
  have hd := r.dll
  rw [← List.append_assoc] at hd
  obtain ⟨c1, h1, h2, h3, h4, h5, h6, h7⟩ := markAsNewest_spec hd
  have hs : s = (a.map fun y => (c.index y, c.payload y)) ++ (k, c.payload x) :: (b.map fun y => (c.index y, c.payload y)) := by
    rw [r.abs, List.map_append, List.map_cons, hk]
  have ha' : k ∉ (a.map fun y => (c.index y, c.payload y)).map Prod.fst := by rw [List.map_map]; exact ha
  have hb' : k ∉ (b.map fun y => (c.index y, c.payload y)).map Prod.fst := by rw [List.map_map]; exact hb
  have hkg : keyGone k s = (a.map fun y => (c.index y, c.payload y)) ++ (b.map fun y => (c.index y, c.payload y)) := by
    rw [hs]; exact keyGone_split rfl ha' hb'
  have hperm : (a ++ x :: b).Perm (a ++ b ++ [x]) := by
    refine List.perm_middle.trans ?_
    exact (List.perm_append_singleton x (a ++ b)).symm
  refine ⟨c1, a ++ b ++ [x], h1, ?_, ?_, h5, a ++ b, rfl, ?_, ?_⟩
  · exact {
      dll := by rw [← List.append_assoc, ← List.append_assoc]; exact h2
      len := by rw [h3, ← r.len]; simp only [List.length_append, List.length_cons, List.length_nil]; omega
      pos := by rw [h3]; exact r.pos
      isFree := by rw [h7]; exact r.isFree
      isOcc := by rw [h7]; intro y hy; exact r.isOcc y (hperm.mem_iff.2 hy)
      abs := by rw [hkg, h5, h6, List.map_append, List.map_append, List.map_singleton, hk]
      acc := by rw [h4, h6]; exact r.acc.trans (hperm.map _)
      keys := by rw [h6]; exact ((hperm.map c.index).nodup_iff).1 r.keys }
  · rw [hs]; exact find_split rfl ha'
  · have := r.dll.nodup
    rw [List.nodup_append] at this
    have := (hperm.nodup_iff).1 this.2.1
    rw [List.nodup_append] at this
    intro hm; exact this.2.2 x hm x (by simp) rfl
  · intro v; rw [hkg, h5, h6, List.map_append]

omit [DecidableEq K] in
theorem walk_fwd {next prev : Nat → Option Nat} {f l : Option Nat} {L : List Nat} (h : IsDLL next prev f l L) :
    ∀ (a b : List Nat) (fuel : Nat), L = a ++ b → b.length ≤ fuel → walk next fuel b.head? = some b := by
  intro a b
  induction b generalizing a with
  | nil => intro fuel _ _; cases fuel <;> rfl
  | cons x b ih =>
    intro fuel he hf
    cases fuel with
    | zero => simp at hf
    | succ fuel =>
      rw [List.head?_cons, walk, (h.ptr a x b he).1, ih (a ++ [x]) fuel (by simp [he]) (by simpa using hf)]
      rfl

omit [DecidableEq K] in
theorem walk_bwd {next prev : Nat → Option Nat} {f l : Option Nat} {L : List Nat} (h : IsDLL next prev f l L) :
    ∀ (r b : List Nat) (fuel : Nat), L = r.reverse ++ b → r.length ≤ fuel → walk prev fuel r.reverse.getLast? = some r := by
  intro r
  induction r with
  | nil => intro b fuel _ _; cases fuel <;> rfl
  | cons x r ih =>
    intro b fuel he hf
    cases fuel with
    | zero => simp at hf
    | succ fuel =>
      have he' : L = r.reverse ++ x :: b := by rw [he]; simp
      rw [List.reverse_cons, List.getLast?_concat, walk, (h.ptr _ x b he').2, ih (x :: b) fuel he' (by simpa using hf)]
      rfl

theorem Rel.filter (r : Rel c free occ s) : (free ++ occ).filter c.occupied = occ := by
  rw [List.filter_append, List.filter_eq_nil_iff.2 (fun x hx => by rw [r.isFree x hx]; decide), List.filter_eq_self.2 r.isOcc]
  rfl

/-- One call. -/
theorem step_refines (r : Rel c free occ s) (o : Op K V) :
    (∃ c1 out s1 out' free1 occ1, step c o = .ok (c1, out) ∧ lruStep c.depth s o = .ok (s1, out') ∧ OutEq out out' ∧
      Rel c1 free1 occ1 s1 ∧ c1.depth = c.depth) ∨
    (step c o = .abort ∧ lruStep c.depth s o = .abort) ∨ (step c o = .throw ∧ lruStep c.depth s o = .throw) := by
  have hlen := r.lens
  cases o with
  | hasFree =>
    left
    refine ⟨c, _, s, _, free, occ, rfl, rfl, ?_, r, rfl⟩
    simp only [OutEq, hasFreeSlot]; rw [hlen.1, hlen.2]
  | contains k =>
    left
    refine ⟨c, _, s, _, free, occ, rfl, rfl, ?_, r, rfl⟩
    simp only [OutEq, contains]
    cases hf : mFind c.accessor k with
    | none => simp only [Option.isSome_none]; rw [decide_eq_false (r.find_none.1 hf)]
    | some x =>
      simp only [Option.isSome_some]
      rw [decide_eq_true]
      apply Classical.byContradiction
      intro hn
      rw [r.find_none.2 hn] at hf; cases hf
  | contained =>
    left
    refine ⟨c, _, s, _, free, occ, rfl, rfl, ?_, r, rfl⟩
    simp only [OutEq, containedElements]
    have := r.acc.map Prod.fst
    rw [List.map_map] at this
    rw [r.abs, List.map_map]
    exact this
  | insert k v =>
    by_cases hk : k ∈ s.map Prod.fst
    · right; left
      refine ⟨?_, by simp only [lruStep]; rw [if_pos (Or.inl hk)]⟩
      simp only [step, insertNoOverwrite, insertRef, contains]
      cases hf : mFind c.accessor k with
      | none => exact absurd hk (r.find_none.1 hf)
      | some x => rfl
    · have hf := r.find_none.2 hk
      cases free with
      | nil =>
        right; left
        have hfull : s.length = c.depth := by have := r.len; simp at this; omega
        refine ⟨?_, by simp only [lruStep]; rw [if_pos (Or.inr hfull)]⟩
        obtain ⟨x, hx⟩ : ∃ x, occ.head? = some x := by
          cases occ with
          | nil => have := r.len; have := r.pos; simp at *; omega
          | cons x occ => exact ⟨x, rfl⟩
        have hold : c.oldest = some x := by rw [r.dll.first]; exact hx
        have hocc := r.isOcc x (List.mem_of_head? hx)
        simp only [step, insertNoOverwrite, insertRef, contains, hf, hold]
        simp only [Option.isSome_none, Bool.not_false, Res.assert_true, Res.ok_bind, hocc]
        rfl
      | cons x free =>
        left
        have hold : c.oldest = some x := by rw [r.dll.first]; rfl
        have hfree := r.isFree x (by simp)
        have hd : IsDLL c.next c.prev c.oldest c.newest ([] ++ x :: (free ++ occ)) := r.dll
        obtain ⟨c1, h1, h2, h3, h4, h5, h6, h7⟩ := markAsNewest_spec
          (c := { c with index := upd c.index x k, occupied := upd c.occupied x true }) hd
        simp only at h3 h4 h5 h6 h7
        have hnd := r.dll.nodup
        rw [List.cons_append, List.nodup_cons] at hnd
        have hxocc : x ∉ occ := fun hm => hnd.1 (by simp [hm])
        have hxfree : x ∉ free := fun hm => hnd.1 (by simp [hm])
        refine ⟨store { c1 with accessor := mSet c1.accessor k x } x v, .unit, s ++ [(k, v)], .unit, free, occ ++ [x], ?_, ?_,
          rfl, ?_, h3⟩
        · simp only [step, insertNoOverwrite, insertRef, contains, hf, hold]
          simp only [Option.isSome_none, Bool.not_false, Res.assert_true, Res.ok_bind, hfree]
          rw [hold] at h1
          rw [h1]
          rfl
        · have : s.length ≠ c.depth := by have := r.len; simp at this; omega
          simp only [lruStep]; rw [if_neg (by simp [hk, this])]
        · have hidx : ∀ y ∈ occ, upd c.index x k y = c.index y := fun y hy => upd_ne _ _ (by rintro rfl; exact hxocc hy)
          have hmapI : occ.map (upd c.index x k) = occ.map c.index := List.map_congr_left hidx
          exact {
            dll := by rw [← List.append_assoc]; simpa [store] using h2
            len := by
              simp only [store]; rw [h3, ← r.len]
              simp only [List.length_append, List.length_cons, List.length_nil]; omega
            pos := by simp only [store]; rw [h3]; exact r.pos
            isFree := by
              intro y hy; simp only [store, h7]
              rw [upd_ne _ _ (by rintro rfl; exact hxfree hy)]; exact r.isFree y (by simp [hy])
            isOcc := by
              intro y hy; simp only [store, h7]
              rcases List.mem_append.1 hy with hy' | hy'
              · have hyx : y ≠ x := by rintro rfl; exact hxocc hy'
                rw [upd_ne _ _ hyx]; exact r.isOcc y hy'
              · rw [List.mem_singleton.1 hy', upd_same]
            abs := by
              simp only [store, h5, h6, List.map_append, List.map_singleton, upd_same]
              rw [r.abs]
              congr 1
              apply List.map_congr_left
              intro y hy
              rw [hidx y hy, upd_ne _ _ (by rintro rfl; exact hxocc hy)]
            acc := by
              simp only [store, h4, h6, mSet, List.map_append, List.map_singleton, upd_same]
              have e : mErase c.accessor k = c.accessor := by
                unfold mErase
                rw [List.filter_eq_self]
                intro p hp
                simp only [decide_eq_true_eq]
                rintro rfl
                have := (mFind_iff r.accKeys (k := p.1) (x := p.2)).2 hp
                rw [hf] at this; cases this
              rw [e]
              refine (List.perm_append_singleton _ _).symm.trans ?_
              apply List.Perm.append_right
              have : occ.map (fun y => (upd c.index x k y, y)) = occ.map fun y => (c.index y, y) :=
                List.map_congr_left fun y hy => by rw [hidx y hy]
              rw [this]; exact r.acc
            keys := by
              simp only [store, h6, List.map_append, List.map_singleton, upd_same, hmapI]
              rw [List.nodup_append]
              refine ⟨r.keys, by simp, ?_⟩
              intro a ha b hb
              rw [List.mem_singleton] at hb
              rintro rfl
              apply hk
              rw [r.abs, List.map_map, ← hb]
              exact ha }
  | get k =>
    cases hf : mFind c.accessor k with
    | none =>
      right; right
      refine ⟨by simp only [step, get, hf]; rfl, ?_⟩
      have hk := r.find_none.1 hf
      simp only [lruStep]
      cases hs : s.find? (fun p => p.1 = k) with
      | none => rfl
      | some p =>
        have h1 := List.find?_some hs
        simp only [decide_eq_true_eq] at h1
        exact absurd (List.mem_map.2 ⟨p, List.mem_of_find?_eq_some hs, h1⟩) hk
    | some x =>
      left
      obtain ⟨c1, occ1, h1, h2, h3, h4, _⟩ := r.touch hf
      have hd : c1.depth = c.depth := by
        have a := h2.len
        have b := r.len
        have := h2.lens.1
        have hh := r.lens.1
        unfold markAsNewest at h1
        split at h1
        · cases h1; rfl
        · split at h1
          · cases h1
          · cases h1; rfl
      refine ⟨c1, .val (c.payload x), _, .val (c.payload x), free, occ1, ?_, ?_, ?_, h2, hd⟩
      · simp only [step, get, hf, h1, Res.ok_bind, h4]
      · simp only [lruStep, h3]
      · rfl
  | put k v =>
    cases hf : mFind c.accessor k with
    | none =>
      right; right
      refine ⟨by simp only [step, get, hf]; rfl, ?_⟩
      have hk := r.find_none.1 hf
      simp only [lruStep]
      cases hs : s.find? (fun p => p.1 = k) with
      | none => rfl
      | some p =>
        have h1 := List.find?_some hs
        simp only [decide_eq_true_eq] at h1
        exact absurd (List.mem_map.2 ⟨p, List.mem_of_find?_eq_some hs, h1⟩) hk
    | some x =>
      left
      obtain ⟨c1, occ1, h1, h2, h3, h4, o, rfl, hxo, hval⟩ := r.touch hf
      have hd : c1.depth = c.depth := by
        unfold markAsNewest at h1
        split at h1
        · cases h1; rfl
        · split at h1
          · cases h1
          · cases h1; rfl
      have hkx : c1.index x = k := by
        have := h2.abs
        rw [List.map_append, List.map_singleton] at this
        have := (List.append_inj' this rfl).2
        simp only [List.cons.injEq, Prod.mk.injEq] at this
        exact this.1.1.symm
      refine ⟨store c1 x v, .unit, keyGone k s ++ [(k, v)], .unit, free, o ++ [x], ?_, ?_, rfl, ?_, hd⟩
      · simp only [step, get, hf, h1, Res.ok_bind]
      · simp only [lruStep, h3]
      · exact {
          dll := h2.dll
          len := h2.len
          pos := h2.pos
          isFree := h2.isFree
          isOcc := h2.isOcc
          abs := by
            rw [← hval v]
            simp only [store, List.map_append, List.map_singleton, upd_same, hkx]
            congr 1
            apply List.map_congr_left
            intro y hy
            rw [upd_ne _ _ (by rintro rfl; exact hxo hy)]
          acc := h2.acc
          keys := h2.keys }
  | evict k =>
    cases hf : mFind c.accessor k with
    | none =>
      right; left
      refine ⟨by simp only [step, evict, contains, hf]; rfl, ?_⟩
      have hk := r.find_none.1 hf
      simp only [lruStep]
      cases hs : s.find? (fun p => p.1 = k) with
      | none => rfl
      | some p =>
        have h1 := List.find?_some hs
        simp only [decide_eq_true_eq] at h1
        exact absurd (List.mem_map.2 ⟨p, List.mem_of_find?_eq_some hs, h1⟩) hk
    | some x =>
      left
      obtain ⟨hx, hk⟩ := r.find_some.1 hf
      obtain ⟨a, b, rfl, ha, hb⟩ := find_map occ k r.keys x hx hk
      have hd := r.dll
      rw [← List.append_assoc] at hd
      obtain ⟨c1, h1, h2, h3, h4, h5, h6, h7⟩ := markAsOldest_spec
        (c := { c with occupied := upd c.occupied x false }) hd
      simp only at h3 h4 h5 h6 h7
      have hs : s = (a.map fun y => (c.index y, c.payload y)) ++ (k, c.payload x) :: (b.map fun y => (c.index y, c.payload y)) := by
        rw [r.abs, List.map_append, List.map_cons, hk]
      have ha' : k ∉ (a.map fun y => (c.index y, c.payload y)).map Prod.fst := by rw [List.map_map]; exact ha
      have hb' : k ∉ (b.map fun y => (c.index y, c.payload y)).map Prod.fst := by rw [List.map_map]; exact hb
      have hnd := r.dll.nodup
      have hxab : x ∉ a ++ b ∧ x ∉ free := by
        rw [List.nodup_append] at hnd
        have h2 := hnd.2.1
        rw [List.nodup_append, List.nodup_cons] at h2
        refine ⟨fun hm => ?_, fun hm => hnd.2.2 x hm x (by simp) rfl⟩
        rcases List.mem_append.1 hm with hm | hm
        · exact h2.2.2 x hm x (by simp) rfl
        · exact h2.2.1.1 hm
      refine ⟨{ c1 with accessor := mErase c1.accessor (c1.index x) }, .val (c.payload x), a.map (fun y => (c.index y, c.payload y)) ++
        b.map (fun y => (c.index y, c.payload y)), .val (c.payload x), x :: free, a ++ b, ?_, ?_, rfl, ?_, h3⟩
      · simp only [step, evict, contains, hf, Option.isSome_some, Res.assert_true, Res.ok_bind, h1, h5]
      · simp only [lruStep, hs, find_split (p := (k, c.payload x)) rfl ha']
        rw [keyGone_split (p := (k, c.payload x)) rfl ha' hb']
      · exact {
          dll := by simpa using h2
          len := by
            rw [h3, ← r.len]; simp only [List.length_append, List.length_cons]; omega
          pos := by rw [h3]; exact r.pos
          isFree := by
            intro y hy
            simp only [h7]
            rcases List.mem_cons.1 hy with rfl | hy'
            · rw [upd_same]
            · have hyx : y ≠ x := by rintro rfl; exact hxab.2 hy'
              rw [upd_ne _ _ hyx]; exact r.isFree y hy'
          isOcc := by
            intro y hy
            simp only [h7]
            rw [upd_ne _ _ (by rintro rfl; exact hxab.1 hy)]
            rcases List.mem_append.1 hy with hy | hy
            · exact r.isOcc y (by simp [hy])
            · exact r.isOcc y (by simp [hy])
          abs := by simp only [h5, h6, List.map_append]
          acc := by
            simp only [h4, h6, hk]
            refine (mErase_perm r.acc k).trans ?_
            rw [List.map_append, List.map_cons, mErase, List.filter_append, List.filter_cons_of_neg (by simp [hk]),
              List.map_append]
            rw [List.filter_eq_self.2, List.filter_eq_self.2]
            · intro p hp
              obtain ⟨y, hy, rfl⟩ := List.mem_map.1 hp
              simp only [decide_eq_true_eq]
              intro e; exact hb (List.mem_map.2 ⟨y, hy, e⟩)
            · intro p hp
              obtain ⟨y, hy, rfl⟩ := List.mem_map.1 hp
              simp only [decide_eq_true_eq]
              intro e; exact ha (List.mem_map.2 ⟨y, hy, e⟩)
          keys := by
            simp only [h6]
            have := r.keys
            rw [List.map_append, List.map_cons, List.nodup_append, List.nodup_cons] at this
            rw [List.map_append, List.nodup_append]
            exact ⟨this.1, this.2.1.2, fun y hy z hz => this.2.2 y hy z (by simp [hz])⟩ }
  | evictOldest =>
    by_cases hlt : s.length < c.depth
    · right; left
      refine ⟨?_, by simp only [lruStep]; rw [if_pos hlt]⟩
      simp only [step, evictOldest, hasFreeSlot]
      rw [decide_eq_true (by omega)]
      rfl
    · left
      cases free with
      | cons x free => exfalso; have := r.len; simp at this; omega
      | nil =>
        cases occ with
        | nil => exfalso; have := r.len; have := r.pos; simp at *; omega
        | cons x occ =>
          have hold : c.oldest = some x := by rw [r.dll.first]; rfl
          have hnd := r.dll.nodup
          rw [List.nil_append, List.nodup_cons] at hnd
          have hky := r.keys
          rw [List.map_cons, List.nodup_cons] at hky
          refine ⟨{ c with occupied := upd c.occupied x false, accessor := mErase c.accessor (c.index x) }, .val (c.payload x),
            occ.map (fun y => (c.index y, c.payload y)), .val (c.payload x), [x], occ, ?_, ?_, rfl, ?_, rfl⟩
          · simp only [step, evictOldest, hasFreeSlot]
            rw [decide_eq_false (by omega), hold]
            rfl
          · simp only [lruStep]
            rw [if_neg hlt, r.abs, List.map_cons]
          · exact {
              dll := r.dll
              len := by rw [← r.len]; simp
              pos := r.pos
              isFree := by intro y hy; rw [List.mem_singleton.1 hy]; simp
              isOcc := by
                intro y hy
                simp only
                rw [upd_ne _ _ (by rintro rfl; exact hnd.1 hy)]; exact r.isOcc y (by simp [hy])
              abs := rfl
              acc := by
                refine (mErase_perm r.acc _).trans ?_
                rw [List.map_cons, mErase, List.filter_cons_of_neg (by simp), List.filter_eq_self.2]
                intro p hp
                obtain ⟨y, hy, rfl⟩ := List.mem_map.1 hp
                simp only [decide_eq_true_eq]
                intro e; exact hky.1 (List.mem_map.2 ⟨y, hy, e⟩)
              keys := hky.2 }
  | oldToNew =>
    left
    refine ⟨c, .vals (s.map Prod.snd), s, .vals (s.map Prod.snd), free, occ, ?_, rfl, rfl, r, rfl⟩
    have hw : walk c.next (c.depth + 1) c.oldest = some (free ++ occ) := by
      rw [r.dll.first]
      exact walk_fwd r.dll [] (free ++ occ) _ rfl (by rw [r.len]; omega)
    simp only [step, oldToNew, hw, Res.ofLoop, Res.ok_bind]
    rw [r.filter, r.abs, List.map_map]
    rfl
  | newToOld =>
    left
    refine ⟨c, .vals (s.map Prod.snd).reverse, s, .vals (s.map Prod.snd).reverse, free, occ, ?_, rfl, rfl, r, rfl⟩
    have hw : walk c.prev (c.depth + 1) c.newest = some (free ++ occ).reverse := by
      rw [r.dll.last]
      have := walk_bwd r.dll (free ++ occ).reverse [] (c.depth + 1) (by simp) (by rw [List.length_reverse, r.len]; omega)
      rw [List.reverse_reverse] at this
      exact this
    simp only [step, newToOld, hw, Res.ofLoop, Res.ok_bind]
    rw [List.filter_reverse, r.filter, r.abs, List.map_map, List.map_reverse]
    rfl

theorem construct_rel (depth : Nat) (hd : 0 < depth) (v0 : V) (k0 : K) :
    ∃ c, construct depth v0 k0 = .ok c ∧ c.depth = depth ∧ Rel c (List.range depth) [] [] := by
  refine ⟨_, by rw [construct, if_neg (by omega)], rfl, ?_⟩
  exact {
    dll := {
      nodup := by rw [List.append_nil]; exact List.nodup_range
      first := by rw [List.append_nil, List.head?_range, if_neg (by omega)]
      last := by rw [List.append_nil, List.getLast?_range, if_neg (by omega)]
      ptr := by
        intro a x b h
        rw [List.append_nil] at h
        have ha : a = List.range a.length := by
          have := congrArg (List.take a.length) h
          rw [List.take_left, List.take_range] at this
          have hl := congrArg List.length h
          simp at hl
          rw [Nat.min_eq_left (by omega)] at this
          exact this.symm
        have hx : x = a.length := by
          have : (List.range depth)[a.length]? = (a ++ x :: b)[a.length]? := by rw [h]
          rw [List.getElem?_append_right (Nat.le_refl _), Nat.sub_self, List.getElem?_cons_zero] at this
          have hl := congrArg List.length h
          simp at hl
          rw [List.getElem?_range (by omega)] at this
          simpa using this.symm
        have hb : b.head? = (List.range depth)[a.length + 1]? := by
          rw [h, List.getElem?_append_right (by omega)]
          rw [show a.length + 1 - a.length = 1 by omega, List.getElem?_cons_succ, List.head?_eq_getElem?]
        constructor
        · simp only [hb, hx]
          by_cases hlt : a.length + 1 < depth
          · rw [if_pos hlt, List.getElem?_range hlt]
          · rw [if_neg hlt, List.getElem?_eq_none (by simp; omega)]
        · simp only [hx]
          rw [ha, List.getLast?_range]
          simp only [List.length_range] }
    len := by simp
    pos := hd
    isFree := fun _ _ => rfl
    isOcc := by simp
    abs := rfl
    acc := by exact List.Perm.refl _
    keys := by simp }

/-- **C17**  For every depth at least one and every sequence of calls, the cache answers exactly like the least-recently-used
    list: same return values (`contained_elements` up to order), same failing call, same kind of failure.  In particular no
    call sequence reaches undefined behaviour. -/
theorem C17_cache_is_lru (depth : Nat) (hd : 0 < depth) (v0 : V) (k0 : K) (ops : List (Op K V)) :
    ∃ c, construct depth v0 k0 = .ok c ∧
      OutsEq (run c ops).1 (lruRun depth [] ops).1 ∧
      (((∃ c1, (run c ops).2 = .ok c1) ∧ ∃ s1, (lruRun (V := V) depth ([] : List (K × V)) ops).2 = .ok s1) ∨
        ((run c ops).2 = .abort ∧ (lruRun (V := V) depth ([] : List (K × V)) ops).2 = .abort) ∨
        ((run c ops).2 = .throw ∧ (lruRun (V := V) depth ([] : List (K × V)) ops).2 = .throw)) := by
  obtain ⟨c, hc, hdep, hr⟩ := construct_rel depth hd v0 k0
  refine ⟨c, hc, ?_⟩
  have key : ∀ (ops : List (Op K V)) (c : Cache K V) free occ s, Rel c free occ s → c.depth = depth →
      OutsEq (run c ops).1 (lruRun depth s ops).1 ∧
      (((∃ c1, (run c ops).2 = .ok c1) ∧ ∃ s1, (lruRun depth s ops).2 = .ok s1) ∨
        ((run c ops).2 = .abort ∧ (lruRun depth s ops).2 = .abort) ∨
        ((run c ops).2 = .throw ∧ (lruRun depth s ops).2 = .throw)) := by
    intro ops
    induction ops with
    | nil => intro c free occ s _ _; exact ⟨.nil, Or.inl ⟨⟨c, rfl⟩, s, rfl⟩⟩
    | cons o ops ih =>
      intro c free occ s hr hdep
      rcases step_refines hr o with ⟨c1, out, s1, out', free1, occ1, h1, h2, h3, h4, h5⟩ | ⟨h1, h2⟩ | ⟨h1, h2⟩
      · rw [hdep] at h2
        obtain ⟨i1, i2⟩ := ih c1 free1 occ1 s1 h4 (h5.trans hdep)
        simp only [run, lruRun, h1, h2]
        exact ⟨.cons h3 i1, i2⟩
      · rw [hdep] at h2
        simp only [run, lruRun, h1, h2]
        exact ⟨.nil, Or.inr (Or.inl ⟨trivial, trivial⟩)⟩
      · rw [hdep] at h2
        simp only [run, lruRun, h1, h2]
        exact ⟨.nil, Or.inr (Or.inr ⟨trivial, trivial⟩)⟩
  exact key ops c _ _ _ hr hdep

/-- **C17**  A cache of depth 0 cannot even be constructed (`front()` of an empty vector). -/
theorem C17_depth_zero (v0 : V) (k0 : K) : construct 0 v0 k0 = .ub := rfl

/-! A non-trivial run: depth 2, the least recently used entry is evicted. -/
example : (lruRun (K := Nat) (V := Nat) 2 [] [.insert 7 70, .insert 8 80, .get 7, .evictOldest, .insert 9 90, .oldToNew]).1
    = [.unit, .unit, .val 70, .val 80, .unit, .vals [70, 90]] := by rfl
example : ((construct (K := Nat) (V := Nat) 2 0 0).bind fun c =>
    .ok (run c [.insert 7 70, .insert 8 80, .get 7, .evictOldest, .insert 9 90, .oldToNew]).1)
    = .ok [.unit, .unit, .val 70, .val 80, .unit, .vals [70, 90]] := by rfl

end Verif.Cache
