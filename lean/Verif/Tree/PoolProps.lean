import Verif.Tree.Pool
/-
C18: the memory pool never hands out a slot twice, never loses one, keeps the contents of allocated slots.
-/
namespace Verif.Pool
open Verif Verif.DLL

variable {T : Type}

/-! ### Specification: the allocated slots with their contents, in the order of allocation. -/

/-- The contents of slot `x` according to the list. -/
def lookup (s : List (Nat × T)) (x : Nat) : Option T := (s.find? fun p => p.1 = x).map Prod.snd

/-- What one call may do, seen from outside. -/
inductive SpecStep (t0 : T) : List (Nat × T) → Op T → List (Nat × T) → Out T → Prop where
  /-- A slot that is not in use; the other slots keep their contents. The contents of the new slot are unspecified. -/
  | get {s x t} : x ∉ s.map Prod.fst → SpecStep t0 s .get (s ++ [(x, t)]) (.slot x)
  | free {s x} : x ∈ s.map Prod.fst → SpecStep t0 s (.free x) (s.filter fun p => p.1 ≠ x) .unit
  | read {s x t} : lookup s x = some t → SpecStep t0 s (.read x) s (.val t)
  | write {s x t} : x ∈ s.map Prod.fst →
      SpecStep t0 s (.write x t) (s.map fun p => if p.1 = x then (x, t) else p) .unit
  | elements {s} : SpecStep t0 s .elements s (.elems s)
  | reset {s} : SpecStep t0 s .reset [] .unit

/-- The client only frees, reads and writes slots it holds. -/
def Legal (s : List (Nat × T)) : Op T → Prop
  | .free x => x ∈ s.map Prod.fst
  | .read x => x ∈ s.map Prod.fst
  | .write x _ => x ∈ s.map Prod.fst
  | _ => True

/-! ### The invariant -/

structure Inv (p : Pool T) (fr al : List Nat) : Prop where
  ini : 0 < p.init_size
  pos : 0 < p.size
  dllF : IsDLL p.next p.prev p.freeStart p.freeEnd fr
  dllA : IsDLL p.next p.prev p.allocStart p.allocEnd al
  disj : ∀ x ∈ fr, x ∉ al
  all : ∀ x, x < p.size ↔ x ∈ fr ∨ x ∈ al

/-- The abstract contents. -/
def abs (p : Pool T) (al : List Nat) : List (Nat × T) := al.map fun x => (x, p.data x)

theorem abs_keys (p : Pool T) (al : List Nat) : (abs p al).map Prod.fst = al := by
  rw [abs, List.map_map]; exact List.map_id _

theorem setO_ok {size : Nat} {m : Nat → Option Nat} {i : Nat} {v : Option Nat} (h : i < size) : setO size m i v = .ok (upd m i v) :=
  if_pos h

/-- `remove_from_slot_list` on a list and its neighbours in another, disjoint list. -/
theorem remove_spec {size : Nat} {s : Lst} {a b : List Nat} {x : Nat} (h : IsDLL s.next s.prev s.start s.stop (a ++ x :: b))
    (hb : ∀ y ∈ a ++ x :: b, y < size) :
    ∃ s1, remove size s x = .ok s1 ∧ IsDLL s1.next s1.prev s1.start s1.stop (a ++ b) ∧
      (∀ y, y ∉ a ++ x :: b → s1.next y = s.next y ∧ s1.prev y = s.prev y) := by
  have hnx := h.next_of
  have hpx := h.prev_of
  have hxs : x < size := hb x (by simp)
  have hnd := h.nodup
  have hrem := h.remove
  refine ⟨⟨updO s.next a.getLast? b.head?, updO s.prev b.head? a.getLast?,
    if a.getLast? = none then b.head? else s.start, if b.head? = none then a.getLast? else s.stop⟩, ?_, hrem, ?_⟩
  · unfold remove
    rw [decide_eq_true hxs]
    simp only [Res.assert_true, Res.ok_bind]
    rw [hpx]
    cases ha : a.getLast? with
    | none =>
      simp only [Res.ok_bind, hnx, updO]
      cases hbh : b.head? with
      | none => simp [hpx, ha]
      | some n =>
        have hns : n < size := hb n (by simp [List.mem_of_head? hbh])
        simp only [setO_ok hns, Res.ok_bind, hpx, ha]
        simp
    | some q =>
      have hqa : q ∈ a := List.mem_of_getLast? ha
      have hqs : q < size := hb q (by simp [hqa])
      have hxq : x ≠ q := by
        rintro rfl
        rw [List.nodup_append] at hnd
        exact hnd.2.2 x hqa x (by simp) rfl
      simp only [setO_ok hqs, Res.ok_bind, updO]
      rw [upd_ne _ _ hxq, hnx]
      cases hbh : b.head? with
      | none => simp [hpx, ha]
      | some n =>
        have hns : n < size := hb n (by simp [List.mem_of_head? hbh])
        simp only [setO_ok hns, Res.ok_bind, hpx, ha]
        simp
  · intro y hy
    constructor
    · cases ha : a.getLast? with
      | none => rfl
      | some q => exact upd_ne _ _ (by rintro rfl; exact hy (by simp [List.mem_of_getLast? ha]))
    · cases hbh : b.head? with
      | none => rfl
      | some q => exact upd_ne _ _ (by rintro rfl; exact hy (by simp [List.mem_of_head? hbh]))

theorem addBack_spec {size : Nat} {s : Lst} {L : List Nat} {x : Nat} (h : IsDLL s.next s.prev s.start s.stop L)
    (hb : ∀ y ∈ L, y < size) (hx : x ∉ L) (hxs : x < size) :
    ∃ s1, addBack size s x = .ok s1 ∧ IsDLL s1.next s1.prev s1.start s1.stop (L ++ [x]) ∧
      (∀ y, y ∉ L → y ≠ x → s1.next y = s.next y ∧ s1.prev y = s.prev y) := by
  have hp := h.pushBack hx
  have hl := h.last
  refine ⟨⟨upd (updO s.next L.getLast? (some x)) x none, upd s.prev x L.getLast?,
    if L.getLast? = none then some x else s.start, some x⟩, ?_, hp, ?_⟩
  · unfold addBack
    rw [decide_eq_true hxs]
    simp only [Res.assert_true, Res.ok_bind]
    cases hg : L.getLast? with
    | none =>
      rw [List.getLast?_eq_none_iff] at hg
      subst hg
      have hs : s.start = none := h.first
      rw [hl]
      simp only [List.getLast?_nil, hs, Option.isNone_none, Res.assert_true, Res.ok_bind, updO, if_true]
    | some e =>
      have hes : e < size := hb e (List.mem_of_getLast? hg)
      rw [hl, hg]
      simp only [setO_ok hes, Res.ok_bind, updO]
      simp
  · intro y hy hyx
    refine ⟨?_, upd_ne _ _ hyx⟩
    show upd (updO s.next L.getLast? (some x)) x none y = s.next y
    rw [upd_ne _ _ hyx]
    cases hg : L.getLast? with
    | none => rfl
    | some e => exact upd_ne _ _ (by rintro rfl; exact hy (List.mem_of_getLast? hg))

/-- Adding a range of fresh slots to the free list. -/
theorem addFreeRange_spec : ∀ (is : List Nat) (p : Pool T) (fr al : List Nat),
    IsDLL p.next p.prev p.freeStart p.freeEnd fr → IsDLL p.next p.prev p.allocStart p.allocEnd al →
    (∀ y ∈ fr, y < p.size) → (∀ y ∈ is, y < p.size) → (∀ y ∈ is, y ∉ fr ∧ y ∉ al) → (∀ y ∈ fr, y ∉ al) → is.Nodup →
    ∃ p1, addFreeRange p is = .ok p1 ∧ IsDLL p1.next p1.prev p1.freeStart p1.freeEnd (fr ++ is) ∧
      IsDLL p1.next p1.prev p1.allocStart p1.allocEnd al ∧ p1.size = p.size ∧ p1.init_size = p.init_size ∧ p1.data = p.data
  | [], p, fr, al, h1, h2, _, _, _, _, _ => ⟨p, rfl, by simpa using h1, h2, rfl, rfl, rfl⟩
  | i :: is, p, fr, al, h1, h2, hf, hi, hn, hd, hnd => by
      rw [List.nodup_cons] at hnd
      obtain ⟨l, a1, a2, a3⟩ := addBack_spec (s := freeList p) h1 hf (hn i (by simp)).1 (hi i (by simp))
      have h2' : IsDLL l.next l.prev p.allocStart p.allocEnd al := h2.congr
        (fun x hx => (a3 x (fun hm => hd x hm hx) (by rintro rfl; exact (hn x (by simp)).2 hx)).1)
        (fun x hx => (a3 x (fun hm => hd x hm hx) (by rintro rfl; exact (hn x (by simp)).2 hx)).2)
      obtain ⟨p1, b1, b2, b3, b4, b5, b6⟩ := addFreeRange_spec is (withFree p l) (fr ++ [i]) al a2 h2'
        (by
          intro y hy
          rcases List.mem_append.1 hy with hy | hy
          · exact hf y hy
          · rw [List.mem_singleton.1 hy]; exact hi i (by simp))
        (fun y hy => hi y (by simp [hy]))
        (by
          intro y hy
          refine ⟨fun hm => ?_, (hn y (by simp [hy])).2⟩
          rcases List.mem_append.1 hm with hm | hm
          · exact (hn y (by simp [hy])).1 hm
          · rw [List.mem_singleton.1 hm] at hy; exact hnd.1 hy)
        (by
          intro y hy
          rcases List.mem_append.1 hy with hy | hy
          · exact hd y hy
          · rw [List.mem_singleton.1 hy]; exact (hn i (by simp)).2)
        hnd.2
      refine ⟨p1, ?_, by simpa using b2, b3, b4, b5, b6⟩
      rw [addFreeRange, a1]
      exact b1

theorem isDLL_nil (n p : Nat → Option Nat) : IsDLL n p none none [] where
  nodup := by simp
  first := rfl
  last := rfl
  ptr a x b h := by simp at h

theorem resetLists_spec (p : Pool T) (hi : 0 < p.init_size) (hs : 0 < p.size) :
    ∃ p1, resetLists p = .ok p1 ∧ Inv p1 (List.range p.size) [] ∧ p1.data = p.data ∧ p1.size = p.size ∧
      p1.init_size = p.init_size := by
  obtain ⟨p1, b1, b2, b3, b4, b5, b6⟩ := addFreeRange_spec (List.range p.size)
    { p with freeStart := none, freeEnd := none, allocStart := none, allocEnd := none } [] [] (isDLL_nil _ _) (isDLL_nil _ _)
    (by simp) (by intro y hy; exact List.mem_range.1 hy) (by simp) (by simp) List.nodup_range
  refine ⟨p1, b1, ?_, b6, b4, b5⟩
  exact { ini := by rw [b5]; exact hi
          pos := by rw [b4]; exact hs
          dllF := by simpa using b2
          dllA := b3
          disj := by simp
          all := by intro x; rw [b4]; simp }

theorem grow_spec {p : Pool T} {fr al : List Nat} (h : Inv p fr al) (t0 : T) :
    ∃ p1, grow p t0 = .ok p1 ∧ Inv p1 (fr ++ (List.range p.size).map (p.size + ·)) al ∧ (∀ x < p.size, p1.data x = p.data x) := by
  have hlt : ∀ x, x ∈ fr ∨ x ∈ al → x < p.size := fun x hx => (h.all x).2 hx
  unfold grow
  obtain ⟨p1, b1, b2, b3, b4, b5, b6⟩ := addFreeRange_spec ((List.range (2 * p.size - p.size)).map (p.size + ·))
    { p with size := 2 * p.size, data := fun i => if i < p.size then p.data i else t0,
             next := fun i => if i < p.size then p.next i else none, prev := fun i => if i < p.size then p.prev i else none } fr al
    (h.dllF.congr (fun x hx => if_pos (hlt x (Or.inl hx))) (fun x hx => if_pos (hlt x (Or.inl hx))))
    (h.dllA.congr (fun x hx => if_pos (hlt x (Or.inr hx))) (fun x hx => if_pos (hlt x (Or.inr hx))))
    (by intro y hy; have := hlt y (Or.inl hy); show y < 2 * p.size; omega)
    (by
      intro y hy
      obtain ⟨k, hk, rfl⟩ := List.mem_map.1 hy
      have := List.mem_range.1 hk
      show p.size + k < 2 * p.size; omega)
    (by
      intro y hy
      obtain ⟨k, hk, rfl⟩ := List.mem_map.1 hy
      exact ⟨fun hm => by have := hlt _ (Or.inl hm); omega, fun hm => by have := hlt _ (Or.inr hm); omega⟩)
    h.disj
    (List.Pairwise.map _ (fun a b hab he => hab (by omega)) List.nodup_range)
  have e2 : 2 * p.size - p.size = p.size := by omega
  rw [e2] at b2
  refine ⟨p1, b1, ?_, fun x hx => by rw [b6]; exact if_pos hx⟩
  exact {
    ini := by rw [b5]; exact h.ini
    pos := by rw [b4]; have := h.pos; show 0 < 2 * p.size; omega
    dllF := b2
    dllA := b3
    disj := by
      intro x hx
      rcases List.mem_append.1 hx with hx | hx
      · exact h.disj x hx
      · obtain ⟨k, hk, rfl⟩ := List.mem_map.1 hx
        intro hm; have := hlt _ (Or.inr hm); omega
    all := by
      intro x
      rw [b4]
      show x < 2 * p.size ↔ _
      constructor
      · intro hx
        by_cases hlt : x < p.size
        · rcases (h.all x).1 hlt with hh | hh
          · left; simp [hh]
          · right; exact hh
        · left
          rw [List.mem_append, List.mem_map]
          exact Or.inr ⟨x - p.size, List.mem_range.2 (by omega), by omega⟩
      · rintro (hx | hx)
        · rcases List.mem_append.1 hx with hx | hx
          · have := hlt x (Or.inl hx); omega
          · obtain ⟨k, hk, rfl⟩ := List.mem_map.1 hx
            have := List.mem_range.1 hk; omega
        · have := hlt x (Or.inr hx); omega }

theorem take_spec {p : Pool T} {x : Nat} {fr al : List Nat} (h : Inv p (x :: fr) al) :
    ∃ l l2, remove p.size (freeList p) x = .ok l ∧ addBack p.size (allocList (withFree p l)) x = .ok l2 ∧
      Inv (withAlloc (withFree p l) l2) fr (al ++ [x]) := by
  have hF : IsDLL (freeList p).next (freeList p).prev (freeList p).start (freeList p).stop ([] ++ x :: fr) := h.dllF
  have hlt : ∀ y, y ∈ x :: fr ∨ y ∈ al → y < p.size := fun y hy => (h.all y).2 hy
  obtain ⟨l, r1, r2, r3⟩ := remove_spec hF (fun y hy => hlt y (Or.inl hy))
  have hxal : x ∉ al := h.disj x (by simp)
  have hxfr : x ∉ fr := (List.nodup_cons.1 h.dllF.nodup).1
  have hA : IsDLL l.next l.prev p.allocStart p.allocEnd al := h.dllA.congr
    (fun y hy => (r3 y (fun hm => h.disj y hm hy)).1) (fun y hy => (r3 y (fun hm => h.disj y hm hy)).2)
  obtain ⟨l2, a1, a2, a3⟩ := addBack_spec (size := p.size) (s := allocList (withFree p l)) hA
    (fun y hy => hlt y (Or.inr hy)) hxal (hlt x (Or.inl (by simp)))
  refine ⟨l, l2, r1, a1, ?_⟩
  exact {
    ini := h.ini
    pos := h.pos
    dllF := r2.congr
      (fun y hy => (a3 y (h.disj y (by simp at hy; simp [hy])) (by rintro rfl; exact hxfr (by simpa using hy))).1)
      (fun y hy => (a3 y (h.disj y (by simp at hy; simp [hy])) (by rintro rfl; exact hxfr (by simpa using hy))).2)
    dllA := a2
    disj := by
      intro y hy hm
      rcases List.mem_append.1 hm with hm | hm
      · exact h.disj y (by simp [hy]) hm
      · rw [List.mem_singleton.1 hm] at hy; exact hxfr hy
    all := by
      intro y
      show y < p.size ↔ _
      rw [h.all y, List.mem_cons, List.mem_append, List.mem_singleton]
      constructor
      · rintro ((h | h) | h)
        · exact Or.inr (Or.inr h)
        · exact Or.inl h
        · exact Or.inr (Or.inl h)
      · rintro (h | h | h)
        · exact Or.inl (Or.inr h)
        · exact Or.inr h
        · exact Or.inl (Or.inl h) }

theorem walk_fwd {next prev : Nat → Option Nat} {f l : Option Nat} {L : List Nat} (h : IsDLL next prev f l L) :
    ∀ (a b : List Nat) (fuel : Nat), L = a ++ b → b.length ≤ fuel → walk next fuel b.head? = some b := by
  intro a b
  induction b generalizing a with
  | nil => intro fuel _ _; cases fuel <;> rfl
  | cons x b ih =>
    intro fuel he hf
    cases fuel with
    | zero => simp at hf
    | succ fuel =>
      rw [List.head?_cons, walk, (h.ptr a x b he).1, ih (a ++ [x]) fuel (by simp [he]) (by simpa using hf)]
      rfl

theorem length_le_of_bound : ∀ (n : Nat) (l : List Nat), l.Nodup → (∀ x ∈ l, x < n) → l.length ≤ n
  | 0, l, _, h => by
      cases l with
      | nil => simp
      | cons x l => have := h x (by simp); omega
  | n + 1, l, hn, h => by
      have h1 := length_le_of_bound n (l.erase n) (hn.erase n) (by
        intro x hx
        have h1 := h x (List.mem_of_mem_erase hx)
        have h2 : x ≠ n := by rintro rfl; exact (hn.mem_erase_iff.1 hx).1 rfl
        omega)
      have := List.length_erase (a := n) (l := l)
      split at this <;> omega

theorem lookup_abs {p : Pool T} {al : List Nat} {x : Nat} (hx : x ∈ al) : lookup (abs p al) x = some (p.data x) := by
  induction al with
  | nil => simp at hx
  | cons y al ih =>
    simp only [lookup, abs, List.map_cons, List.find?_cons]
    by_cases hy : y = x
    · simp [hy]
    · rw [decide_eq_false hy]
      rcases List.mem_cons.1 hx with h | h
      · exact absurd h.symm hy
      · exact ih h

/-- One legal call. -/
theorem step_spec {p : Pool T} {fr al : List Nat} (h : Inv p fr al) (t0 : T) (o : Op T) (hl : Legal (abs p al) o) :
    ∃ p1 out fr1 al1, step t0 p o = .ok (p1, out) ∧ Inv p1 fr1 al1 ∧ SpecStep t0 (abs p al) o (abs p1 al1) out := by
  have hlt : ∀ y, y ∈ fr ∨ y ∈ al → y < p.size := fun y hy => (h.all y).2 hy
  cases o with
  | get =>
    -- after growing if necessary
    obtain ⟨p0, x, fr0, g1, g2, g3⟩ : ∃ p0 x fr0, (if p.freeStart = none then grow p t0 else .ok p) = .ok p0 ∧
        Inv p0 (x :: fr0) al ∧ (∀ y ∈ al, p0.data y = p.data y) := by
      cases fr with
      | nil =>
        have : p.freeStart = none := h.dllF.first
        rw [if_pos this]
        obtain ⟨p1, b1, b2, b3⟩ := grow_spec h t0
        obtain ⟨n, hn⟩ : ∃ n, p.size = n + 1 := ⟨p.size - 1, by have := h.pos; omega⟩
        refine ⟨p1, p.size + 0, ((List.range n).map Nat.succ).map (p.size + ·), b1, ?_, fun y hy => b3 y (hlt y (Or.inr hy))⟩
        have e : ([] : List Nat) ++ (List.range p.size).map (p.size + ·)
            = (p.size + 0) :: ((List.range n).map Nat.succ).map (p.size + ·) := by
          rw [List.nil_append, hn, List.range_succ_eq_map, List.map_cons]
        rw [e] at b2
        exact b2
      | cons x fr =>
        have : p.freeStart = some x := h.dllF.first
        rw [if_neg (by rw [this]; simp)]
        exact ⟨p, x, fr, rfl, h, fun _ _ => rfl⟩
    obtain ⟨l, l2, r1, r2, r3⟩ := take_spec g2
    have hst : p0.freeStart = some x := g2.dllF.first
    refine ⟨withAlloc (withFree p0 l) l2, .slot x, fr0, al ++ [x], ?_, r3, ?_⟩
    · simp only [step, getSlot, g1, Res.ok_bind, hst, r1]
      show ((addBack p0.size _ x).bind _).bind _ = _
      rw [r2]
      rfl
    · have e : abs (withAlloc (withFree p0 l) l2) (al ++ [x]) = abs p al ++ [(x, p0.data x)] := by
        simp only [abs, List.map_append, List.map_singleton]
        congr 1
        apply List.map_congr_left
        intro y hy
        show (y, p0.data y) = _
        rw [g3 y hy]
      rw [e]
      exact SpecStep.get (by rw [abs_keys]; exact g2.disj x (by simp))
  | free x =>
    simp only [Legal, abs_keys] at hl
    obtain ⟨a, b, rfl⟩ := List.append_of_mem hl
    have hA : IsDLL (allocList p).next (allocList p).prev (allocList p).start (allocList p).stop (a ++ x :: b) := h.dllA
    obtain ⟨l, r1, r2, r3⟩ := remove_spec hA (fun y hy => hlt y (Or.inr hy))
    have hxf : x ∉ fr := fun hm => h.disj x hm (by simp)
    have hF : IsDLL l.next l.prev p.freeStart p.freeEnd fr := h.dllF.congr
      (fun y hy => (r3 y (fun hm => h.disj y hy hm)).1) (fun y hy => (r3 y (fun hm => h.disj y hy hm)).2)
    obtain ⟨l2, a1, a2, a3⟩ := addBack_spec (size := p.size) (s := freeList (withAlloc p l)) hF
      (fun y hy => hlt y (Or.inl hy)) hxf (hlt x (Or.inr (by simp)))
    have hnd := h.dllA.nodup
    have hxab : x ∉ a ++ b := by
      rw [List.nodup_append, List.nodup_cons] at hnd
      intro hm
      rcases List.mem_append.1 hm with hm | hm
      · exact hnd.2.2 x hm x (by simp) rfl
      · exact hnd.2.1.1 hm
    refine ⟨withFree (withAlloc p l) l2, .unit, fr ++ [x], a ++ b, ?_, ?_, ?_⟩
    · simp only [step, freeSlot, r1, Res.ok_bind]
      show ((addBack p.size _ x).bind _).bind _ = _
      rw [a1]
      rfl
    · exact {
        ini := h.ini
        pos := h.pos
        dllF := a2
        dllA := r2.congr
          (fun y hy => (a3 y (fun hm => h.disj y hm (by simp at hy ⊢; rcases hy with hy | hy <;> simp [hy]))
            (by rintro rfl; exact hxab hy)).1)
          (fun y hy => (a3 y (fun hm => h.disj y hm (by simp at hy ⊢; rcases hy with hy | hy <;> simp [hy]))
            (by rintro rfl; exact hxab hy)).2)
        disj := by
          intro y hy hm
          rcases List.mem_append.1 hy with hy | hy
          · exact h.disj y hy (by simp at hm ⊢; rcases hm with hm | hm <;> simp [hm])
          · rw [List.mem_singleton.1 hy] at hm; exact hxab hm
        all := by
          intro y
          show y < p.size ↔ _
          rw [h.all y]
          simp only [List.mem_append, List.mem_cons, List.mem_singleton, List.not_mem_nil, or_false]
          constructor
          · rintro (h | h | h | h) <;> simp [h]
          · rintro ((h | h) | h | h) <;> simp [h] }
    · have e : abs (withFree (withAlloc p l) l2) (a ++ b) = (abs p (a ++ x :: b)).filter fun q => q.1 ≠ x := by
        show (a ++ b).map (fun y => (y, p.data y)) = _
        rw [abs, List.map_append, List.map_append, List.map_cons, List.filter_append, List.filter_cons_of_neg (by simp),
          List.filter_eq_self.2, List.filter_eq_self.2]
        · intro q hq
          obtain ⟨y, hy, rfl⟩ := List.mem_map.1 hq
          simp only [ne_eq, decide_eq_true_eq]
          rintro rfl; exact hxab (by simp [hy])
        · intro q hq
          obtain ⟨y, hy, rfl⟩ := List.mem_map.1 hq
          simp only [ne_eq, decide_eq_true_eq]
          rintro rfl; exact hxab (by simp [hy])
      rw [e]
      exact SpecStep.free (by rw [abs_keys]; simp)
  | read x =>
    simp only [Legal, abs_keys] at hl
    refine ⟨p, .val (p.data x), fr, al, ?_, h, SpecStep.read (lookup_abs hl)⟩
    simp only [step, Pool.read]
    rw [if_pos (hlt x (Or.inr hl))]
    rfl
  | write x t =>
    simp only [Legal] at hl
    have hx := hl
    rw [abs_keys] at hx
    refine ⟨{ p with data := upd p.data x t }, .unit, fr, al, ?_, ⟨h.ini, h.pos, h.dllF, h.dllA, h.disj, h.all⟩, ?_⟩
    · simp only [step, Pool.write]
      rw [if_pos (hlt x (Or.inr hx))]
      rfl
    · have e : abs { p with data := upd p.data x t } al = (abs p al).map fun q => if q.1 = x then (x, t) else q := by
        rw [abs, abs, List.map_map]
        apply List.map_congr_left
        intro y _
        simp only [Function.comp]
        by_cases hy : y = x
        · subst hy; simp
        · rw [if_neg hy, upd_ne _ _ hy]
      rw [e]
      exact SpecStep.write hl
  | elements =>
    refine ⟨p, .elems (abs p al), fr, al, ?_, h, SpecStep.elements⟩
    have hw : walk p.next (p.size + 1) p.allocStart = some al := by
      rw [h.dllA.first]
      refine walk_fwd h.dllA [] al _ rfl ?_
      have := length_le_of_bound p.size al h.dllA.nodup (fun x hx => hlt x (Or.inr hx))
      omega
    simp only [step, Pool.elements, hw, Res.ofLoop, Res.ok_bind]
    rfl
  | reset =>
    obtain ⟨p1, b1, b2, b3, _, _⟩ := resetLists_spec
      { p with size := p.init_size, data := fun _ => t0, next := fun _ => none, prev := fun _ => none } h.ini h.ini
    refine ⟨p1, .unit, _, [], ?_, b2, SpecStep.reset⟩
    simp only [step, Pool.reset, b1, Res.ok_bind]

/-- The pools a client can get to: a freshly constructed pool of positive size, then any successful calls that only touch
    slots the client holds (those `elements` lists). -/
inductive Reached (t0 : T) : Pool T → Prop where
  | init {n p} : 0 < n → construct n t0 = .ok p → Reached t0 p
  | step {p s o p1 out} : Reached t0 p → elements p = .ok s → Legal s o → step t0 p o = .ok (p1, out) → Reached t0 p1

theorem elements_eq {p : Pool T} {fr al : List Nat} (h : Inv p fr al) : elements p = .ok (abs p al) := by
  have hw : walk p.next (p.size + 1) p.allocStart = some al := by
    rw [h.dllA.first]
    refine walk_fwd h.dllA [] al _ rfl ?_
    have := length_le_of_bound p.size al h.dllA.nodup (fun x hx => (h.all x).2 (Or.inr hx))
    omega
  simp only [Pool.elements, hw, Res.ofLoop, Res.ok_bind]
  rfl

theorem construct_inv (t0 : T) {n : Nat} (hn : 0 < n) : ∃ p, construct n t0 = .ok p ∧ ∃ fr, Inv p fr [] := by
  obtain ⟨p, h1, h2, _⟩ := resetLists_spec (T := T)
    ⟨n, n, fun _ => t0, fun _ => none, fun _ => none, none, none, none, none⟩ hn hn
  exact ⟨p, h1, _, h2⟩

theorem reached_inv {t0 : T} {p : Pool T} (h : Reached t0 p) : ∃ fr al, Inv p fr al := by
  induction h with
  | init hn hc =>
    obtain ⟨p', h1, fr, h2⟩ := construct_inv t0 hn
    rw [h1] at hc
    cases hc
    exact ⟨fr, [], h2⟩
  | step _ he hl hs ih =>
    obtain ⟨fr, al, hi⟩ := ih
    rw [elements_eq hi] at he
    cases he
    obtain ⟨p1, out, fr1, al1, a, b, _⟩ := step_spec hi t0 _ hl
    rw [a] at hs
    cases hs
    exact ⟨fr1, al1, b⟩

/-- **C18**  In every reachable pool the slots in use are distinct, and every call that only touches slots in use succeeds (no
    assertion, no undefined behaviour, whether or not the pool has to grow) and has exactly the specified effect: `get` returns
    a slot not in use, and every allocated slot keeps its contents until it is overwritten or freed; iteration visits the
    allocated slots in allocation order. -/
theorem C18_pool (t0 : T) (p : Pool T) (h : Reached t0 p) :
    ∃ s, elements p = .ok s ∧ (s.map Prod.fst).Nodup ∧ ∀ o, Legal s o →
      ∃ p1 out s1, step t0 p o = .ok (p1, out) ∧ elements p1 = .ok s1 ∧ SpecStep t0 s o s1 out := by
  obtain ⟨fr, al, hi⟩ := reached_inv h
  refine ⟨abs p al, elements_eq hi, by rw [abs_keys]; exact hi.dllA.nodup, fun o hl => ?_⟩
  obtain ⟨p1, out, fr1, al1, a, b, c⟩ := step_spec hi t0 o hl
  exact ⟨p1, out, _, a, elements_eq b, c⟩

/-- **C18**  Construction with a positive size succeeds and gives an empty pool. -/
theorem C18_construct (t0 : T) (n : Nat) (hn : 0 < n) : ∃ p, construct n t0 = .ok p ∧ elements p = .ok [] := by
  obtain ⟨p, h1, fr, h2⟩ := construct_inv t0 hn
  exact ⟨p, h1, elements_eq h2⟩

/-- **C18**  A pool of initial size 0 can never hand out a slot: doubling zero stays zero and the assertion fails. -/
theorem C18_zero_size (t0 : T) : ∃ p, construct 0 t0 = .ok p ∧ getSlot p t0 = .abort :=
  ⟨_, rfl, rfl⟩

/-! Initial size 1: the pool grows twice, slots are recycled first-in first-out. -/
example : (do
    let p ← construct 1 (0 : Nat)
    let a ← getSlot p 0
    let b ← getSlot a.1 0
    let c ← getSlot b.1 0
    let p ← write c.1 2 7
    let p ← freeSlot p 0
    let p ← freeSlot p 1
    let d ← getSlot p 0
    let e ← getSlot d.1 0
    let es ← elements e.1
    pure (a.2, b.2, c.2, d.2, e.2, es) : Res _) = .ok (0, 1, 2, 3, 0, [(2, 7), (3, 0), (0, 0)]) := by rfl

end Verif.Pool
