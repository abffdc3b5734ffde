/-
Doubly-linked lists over two pointer maps, and what unlinking, pushing to the back and pushing to the front do.
Used for the cache (Cache.hxx) and for the memory pool (RStarTree.hxx).
-/
namespace Verif.DLL

variable {α : Type} [DecidableEq α]

/-- Pointwise update of a map. -/
def upd {β : Type} (f : α → β) (a : α) (b : β) : α → β := fun x => if x = a then b else f x

@[simp] theorem upd_same {β : Type} (f : α → β) (a : α) (b : β) : upd f a b a = b := by simp [upd]
theorem upd_ne {β : Type} (f : α → β) {a x : α} (b : β) (h : x ≠ a) : upd f a b x = f x := by simp [upd, h]

/-- `l` is the list one walks along the pointers from `first` to `last`; `none` is the null pointer. -/
structure IsDLL (next prev : α → Option α) (first last : Option α) (l : List α) : Prop where
  nodup : l.Nodup
  first : first = l.head?
  last : last = l.getLast?
  ptr : ∀ a x b, l = a ++ x :: b → next x = b.head? ∧ prev x = a.getLast?

theorem split_unique {l a b c d : List α} {x : α} (hn : l.Nodup) (h1 : l = a ++ x :: b) (h2 : l = c ++ x :: d) :
    a = c ∧ b = d := by
  subst h1
  induction a generalizing c with
  | nil =>
    cases c with
    | nil => simp at h2; exact ⟨rfl, h2⟩
    | cons y c =>
      simp only [List.nil_append, List.cons_append, List.cons.injEq] at h2
      obtain ⟨rfl, h2⟩ := h2
      rw [List.nil_append, List.nodup_cons] at hn
      rw [h2] at hn
      simp at hn
  | cons z a ih =>
    cases c with
    | nil =>
      simp only [List.nil_append, List.cons_append, List.cons.injEq] at h2
      obtain ⟨rfl, h2⟩ := h2
      rw [List.cons_append, List.nodup_cons] at hn
      simp at hn
    | cons y c =>
      simp only [List.cons_append, List.cons.injEq] at h2
      obtain ⟨rfl, h2⟩ := h2
      rw [List.cons_append, List.nodup_cons] at hn
      obtain ⟨rfl, rfl⟩ := ih hn.2 h2
      exact ⟨rfl, rfl⟩

/-- The first part of a walk. -/
theorem IsDLL.next_of {next prev : α → Option α} {f l : Option α} {a b : List α} {x : α}
    (h : IsDLL next prev f l (a ++ x :: b)) : next x = b.head? := (h.ptr a x b rfl).1
theorem IsDLL.prev_of {next prev : α → Option α} {f l : Option α} {a b : List α} {x : α}
    (h : IsDLL next prev f l (a ++ x :: b)) : prev x = a.getLast? := (h.ptr a x b rfl).2

/-- Two lists with no elements in common changed independently. -/
theorem IsDLL.congr {next prev next' prev' : α → Option α} {f l : Option α} {L : List α}
    (h : IsDLL next prev f l L) (hn : ∀ x ∈ L, next' x = next x) (hp : ∀ x ∈ L, prev' x = prev x) :
    IsDLL next' prev' f l L where
  nodup := h.nodup
  first := h.first
  last := h.last
  ptr a x b he := by
    have hx : x ∈ L := by rw [he]; simp
    rw [hn x hx, hp x hx]; exact h.ptr a x b he

/-- Set the pointer of an optional node. -/
def updO {β : Type} (f : α → β) (a : Option α) (b : β) : α → β :=
  match a with
  | some a => upd f a b
  | none => f

theorem getLast?_append_cons (a : List α) (x : α) (b : List α) : (a ++ x :: b).getLast? = (x :: b).getLast? := by
  rw [List.getLast?_append]
  cases h : (x :: b).getLast? with
  | none => simp at h
  | some y => rfl

theorem head?_append_cons (a : List α) (x : α) (b : List α) : (a ++ x :: b).head? = (a ++ [x]).head? := by
  cases a <;> rfl

/-- Unlinking `x`. -/
theorem IsDLL.remove {next prev : α → Option α} {f l : Option α} {a b : List α} {x : α}
    (h : IsDLL next prev f l (a ++ x :: b)) :
    IsDLL (updO next a.getLast? b.head?) (updO prev b.head? a.getLast?)
      (if a.getLast? = none then b.head? else f) (if b.head? = none then a.getLast? else l) (a ++ b) where
  nodup := by
    have := h.nodup
    rw [List.nodup_append] at this ⊢
    rw [List.nodup_cons] at this
    exact ⟨this.1, this.2.1.2, fun y hy z hz => this.2.2 y hy z (by simp [hz])⟩
  first := by
    cases a with
    | nil => simp
    | cons y a =>
      rw [if_neg (by simp), h.first]; rfl
  last := by
    cases b with
    | nil => simp
    | cons y b =>
      rw [if_neg (by simp), h.last, getLast?_append_cons, getLast?_append_cons]
      rw [List.getLast?_cons_cons]
  ptr c y d he := by
    have hnd := h.nodup
    rcases List.append_eq_append_iff.1 he with ⟨t, rfl, hb⟩ | ⟨t, rfl, hd⟩
    · -- y in b
      have hnd' : (a ++ x :: (t ++ y :: d)).Nodup := by rw [← hb]; exact hnd
      have hp := h.ptr (a ++ x :: t) y d (by rw [hb]; simp)
      have ha : a.getLast? ≠ some y := by
        intro hc
        have : y ∈ a := List.mem_of_getLast? hc
        rw [List.nodup_append] at hnd'
        exact hnd'.2.2 y this y (by simp) rfl
      constructor
      · have : updO next a.getLast? b.head? y = next y := by
          cases hg : a.getLast? with
          | none => rfl
          | some z => exact upd_ne _ _ (by rintro rfl; exact ha hg)
        rw [this, hp.1]
      · cases t with
        | nil =>
          rw [hb]
          simp only [List.nil_append, List.head?_cons, updO, upd_same, List.append_nil]
        | cons t0 t =>
          have : updO prev b.head? a.getLast? y = prev y := by
            rw [hb]
            simp only [List.cons_append, List.head?_cons, updO]
            refine upd_ne _ _ ?_
            rintro rfl
            rw [List.nodup_append, List.nodup_cons, List.cons_append, List.nodup_cons] at hnd'
            exact hnd'.2.1.2.1 (by simp)
          rw [this, hp.2, getLast?_append_cons, getLast?_append_cons, List.getLast?_cons_cons]
    · -- y in a (or t empty)
      cases t with
      | nil =>
        simp only [List.nil_append] at hd
        subst hd
        simp only [List.append_nil] at *
        have hp := h.ptr (c ++ [x]) y d (by simp)
        have hnd' := hnd
        rw [List.nodup_append, List.nodup_cons] at hnd'
        have ha : c.getLast? ≠ some y := by
          intro hc
          exact hnd'.2.2 y (List.mem_of_getLast? hc) y (by simp) rfl
        constructor
        · have : updO next c.getLast? (y :: d).head? y = next y := by
            cases hg : c.getLast? with
            | none => rfl
            | some z => exact upd_ne _ _ (by rintro rfl; exact ha hg)
          rw [this, hp.1]
        · simp only [List.head?_cons, updO, upd_same]
      | cons t0 t =>
        simp only [List.cons_append, List.cons.injEq] at hd
        obtain ⟨rfl, rfl⟩ := hd
        have hp := h.ptr c y (t ++ x :: b) (by simp)
        have hnd' : (c ++ y :: (t ++ x :: b)).Nodup := by simpa using hnd
        rw [List.nodup_append, List.nodup_cons] at hnd'
        have hb : b.head? ≠ some y := by
          intro hc
          have : y ∈ b := List.mem_of_head? hc
          exact hnd'.2.1.1 (by simp [this])
        constructor
        · rw [getLast?_append_cons]
          cases t with
          | nil => simp [updO]
          | cons t1 t =>
            have hne : ((y :: t1 :: t).getLast?) ≠ some y := by
              rw [List.getLast?_cons_cons]
              intro hc
              have : y ∈ t1 :: t := List.mem_of_getLast? hc
              exact hnd'.2.1.1 (List.mem_append_left _ this)
            cases hg : (y :: t1 :: t).getLast? with
            | none => simp at hg
            | some z =>
              rw [hg] at hne
              simp only [updO]
              rw [upd_ne _ _ (by rintro rfl; exact hne rfl), hp.1]
              rfl
        · have : updO prev b.head? (c ++ y :: t).getLast? y = prev y := by
            cases hg : b.head? with
            | none => rfl
            | some z => exact upd_ne _ _ (by rintro rfl; exact hb hg)
          rw [this, hp.2]

/-- Linking a new element at the back. -/
theorem IsDLL.pushBack {next prev : α → Option α} {f l : Option α} {L : List α} {x : α}
    (h : IsDLL next prev f l L) (hx : x ∉ L) :
    IsDLL (upd (updO next L.getLast? (some x)) x none) (upd prev x L.getLast?)
      (if L.getLast? = none then some x else f) (some x) (L ++ [x]) where
  nodup := by
    rw [List.nodup_append]
    exact ⟨h.nodup, by simp, by intro a ha b hb; rw [List.mem_singleton] at hb; rintro rfl; exact hx (hb ▸ ha)⟩
  first := by
    cases L with
    | nil => simp
    | cons y L => rw [if_neg (by simp), h.first]; rfl
  last := by simp
  ptr c y d he := by
    rcases List.append_eq_append_iff.1 he with ⟨t, rfl, hb⟩ | ⟨t, rfl, hd⟩
    · cases t with
      | cons t0 t => have := congrArg List.length hb; simp at this
      | nil =>
        simp only [List.nil_append, List.cons.injEq] at hb
        obtain ⟨rfl, rfl⟩ := hb
        simp
    · cases t with
      | nil =>
        simp only [List.nil_append, List.cons.injEq] at hd
        obtain ⟨rfl, rfl⟩ := hd
        simp
      | cons t0 t =>
        simp only [List.cons_append, List.cons.injEq] at hd
        obtain ⟨rfl, rfl⟩ := hd
        have hyx : y ≠ x := by rintro rfl; exact hx (by simp)
        have hp := h.ptr c y t rfl
        refine ⟨?_, by rw [upd_ne _ _ hyx, hp.2]⟩
        rw [upd_ne _ _ hyx, getLast?_append_cons]
        cases t with
        | nil => simp [updO]
        | cons t1 t =>
          have hnd := h.nodup
          rw [List.nodup_append, List.nodup_cons] at hnd
          have hne : ((y :: t1 :: t).getLast?) ≠ some y := by
            rw [List.getLast?_cons_cons]
            intro hc
            exact hnd.2.1.1 (List.mem_of_getLast? hc)
          cases hg : (y :: t1 :: t).getLast? with
          | none => simp at hg
          | some z =>
            rw [hg] at hne
            simp only [updO]
            rw [upd_ne _ _ (by rintro rfl; exact hne rfl), hp.1]
            rfl

/-- Linking a new element at the front. -/
theorem IsDLL.pushFront {next prev : α → Option α} {f l : Option α} {L : List α} {x : α}
    (h : IsDLL next prev f l L) (hx : x ∉ L) :
    IsDLL (upd next x L.head?) (upd (updO prev L.head? (some x)) x none)
      (some x) (if L.head? = none then some x else l) (x :: L) where
  nodup := List.nodup_cons.2 ⟨hx, h.nodup⟩
  first := rfl
  last := by
    cases L with
    | nil => simp
    | cons y L => rw [if_neg (by simp), h.last, List.getLast?_cons_cons]
  ptr c y d he := by
    cases c with
    | nil =>
      simp only [List.nil_append, List.cons.injEq] at he
      obtain ⟨rfl, rfl⟩ := he
      simp
    | cons c0 c =>
      simp only [List.cons_append, List.cons.injEq] at he
      obtain ⟨rfl, rfl⟩ := he
      have hyx : y ≠ x := by rintro rfl; exact hx (by simp)
      have hp := h.ptr c y d rfl
      refine ⟨by rw [upd_ne _ _ hyx, hp.1], ?_⟩
      rw [upd_ne _ _ hyx]
      cases c with
      | nil => simp [updO]
      | cons c1 c =>
        have hnd := h.nodup
        rw [List.cons_append, List.nodup_cons] at hnd
        simp only [List.cons_append, List.head?_cons, updO]
        rw [upd_ne _ _ (by rintro rfl; exact hnd.1 (by simp)), hp.2, List.getLast?_cons_cons]

end Verif.DLL
