import Verif.Tree.Model
import Verif.Tree.BBoxProps
/-
The invariant of the R*-tree and how elementary changes preserve it.
-/
namespace Verif.Tree
open Verif Verif.ND

variable {P : Type}

/-! ### Boxes -/

/-- A box with its shape up to date. -/
def Good (d : Nat) (b : Box) : Prop := b = Box.mk' b.start b.stop ∧ IsBox d b.start b.stop

def Le (d : Nat) (a b : Box) : Prop := ∀ i < d, b.start.getD i 0 ≤ a.start.getD i 0 ∧ a.stop.getD i 0 ≤ b.stop.getD i 0

theorem Le.refl (d : Nat) (a : Box) : Le d a a := fun _ _ => ⟨Nat.le_refl _, Nat.le_refl _⟩
theorem Le.trans {d : Nat} {a b c : Box} (h1 : Le d a b) (h2 : Le d b c) : Le d a c := fun i hi =>
  ⟨Nat.le_trans (h2 i hi).1 (h1 i hi).1, Nat.le_trans (h1 i hi).2 (h2 i hi).2⟩

theorem extend_spec {d : Nat} {a b : Box} (ha : Good d a) (hb : Good d b) :
    Good d (a.extend b) ∧ Le d a (a.extend b) ∧ Le d b (a.extend b) ∧ ∀ H, Le d a H → Le d b H → Le d (a.extend b) H := by
  obtain ⟨_, l1, l2, h3⟩ := ha
  obtain ⟨_, l3, l4, h5⟩ := hb
  have hm : ∀ i < d, (a.extend b).start.getD i 0 = min (a.start.getD i 0) (b.start.getD i 0) :=
    fun i hi => getD_zipWith (by omega) (by omega)
  have hM : ∀ i < d, (a.extend b).stop.getD i 0 = max (a.stop.getD i 0) (b.stop.getD i 0) :=
    fun i hi => getD_zipWith (by omega) (by omega)
  refine ⟨⟨rfl, ?_, ?_, fun i hi => ?_⟩, fun i hi => ?_, fun i hi => ?_, fun H x y i hi => ?_⟩
  · show (vmin a.start b.start).length = d
    simp [vmin, l1, l3]
  · show (vmax a.stop b.stop).length = d
    simp [vmax, l2, l4]
  · have := h3 i hi; have := h5 i hi
    rw [hm i hi, hM i hi]; omega
  · rw [hm i hi, hM i hi]; omega
  · rw [hm i hi, hM i hi]; omega
  · have := x i hi; have := y i hi
    rw [hm i hi, hM i hi]; omega

theorem reset_extend {d : Nat} {b : Box} (hb : Good d b) : (Box.reset d).extend b = b := by
  obtain ⟨h0, l1, l2, h3⟩ := hb
  have e1 : vmin (List.replicate d (U64 - 1)) b.start = b.start := by
    apply vec_ext
    · simp [vmin, l1]
    · intro i hi
      have hi' : i < d := by simpa [vmin, l1] using hi
      rw [vmin, getD_zipWith (by simpa using hi') (by omega)]
      have := h3 i hi'
      have hU : U64 = 2 ^ 64 := rfl
      have hr : (List.replicate d (U64 - 1)).getD i 0 = U64 - 1 := by
        rw [List.getD_eq_getElem?_getD, List.getElem?_replicate, if_pos hi']; rfl
      rw [hr]; omega
  have e2 : vmax (List.replicate d 0) b.stop = b.stop := by
    apply vec_ext
    · simp [vmax, l2]
    · intro i hi
      have hi' : i < d := by simpa [vmax, l2] using hi
      rw [vmax, getD_zipWith (by simpa using hi') (by omega)]
      have hr : (List.replicate d 0).getD i 0 = 0 := by
        rw [List.getD_eq_getElem?_getD, List.getElem?_replicate, if_pos hi']; rfl
      rw [hr]; omega
  show Box.mk' (vmin (List.replicate d (U64 - 1)) b.start) (vmax (List.replicate d 0) b.stop) = b
  rw [e1, e2]; exact h0.symm

theorem foldl_extend_spec {d : Nat} : ∀ (bs : List Box) (a : Box), Good d a → (∀ b ∈ bs, Good d b) →
    Good d (bs.foldl Box.extend a) ∧ Le d a (bs.foldl Box.extend a) ∧ (∀ b ∈ bs, Le d b (bs.foldl Box.extend a)) ∧
      ∀ H, Le d a H → (∀ b ∈ bs, Le d b H) → Le d (bs.foldl Box.extend a) H
  | [], a, ha, _ => ⟨ha, Le.refl d a, by simp, fun _ h _ => h⟩
  | b :: bs, a, ha, hb => by
      obtain ⟨e1, e2, e3, e4⟩ := extend_spec ha (hb b (by simp))
      obtain ⟨f1, f2, f3, f4⟩ := foldl_extend_spec bs (a.extend b) e1 (fun x hx => hb x (by simp [hx]))
      refine ⟨f1, e2.trans f2, fun x hx => ?_, fun H h1 h2 => f4 H (e4 H h1 (h2 b (by simp))) fun x hx => h2 x (by simp [hx])⟩
      rcases List.mem_cons.1 hx with rfl | hx
      · exact e3.trans f2
      · exact f3 x hx

/-- The hull computed by `recalculate_bbox`. -/
theorem hull_spec {d : Nat} {bs : List Box} (hn : bs ≠ []) (hb : ∀ b ∈ bs, Good d b) :
    Good d (bs.foldl Box.extend (Box.reset d)) ∧ (∀ b ∈ bs, Le d b (bs.foldl Box.extend (Box.reset d))) ∧
      ∀ H, (∀ b ∈ bs, Le d b H) → Le d (bs.foldl Box.extend (Box.reset d)) H := by
  cases bs with
  | nil => exact absurd rfl hn
  | cons b bs =>
    rw [List.foldl_cons, reset_extend (hb b (by simp))]
    obtain ⟨f1, f2, f3, f4⟩ := foldl_extend_spec bs b (hb b (by simp)) (fun x hx => hb x (by simp [hx]))
    refine ⟨f1, fun x hx => ?_, fun H h => f4 H (h b (by simp)) fun x hx => h x (by simp [hx])⟩
    rcases List.mem_cons.1 hx with rfl | hx
    · exact f2
    · exact f3 x hx

/-! ### Counting -/

def contrib (lvl c : Nat) (n : Node) : Nat := if n.level = lvl then n.ch.count c else 0

/-- How often `c` occurs as a child of a node of level `lvl`. -/
def occ (t : Tree P) (lvl c : Nat) : Nat := (t.nodes.map (contrib lvl c)).sum

/-- `c` is something that can be a child of a node of level `lvl`. -/
def isItem (t : Tree P) (c : Nat) : Nat → Bool
  | 0 => decide (c < t.entries.length)
  | k + 1 => match t.nodes[c]? with
    | some n => decide (n.level = k)
    | none => false

theorem isItem_succ {t : Tree P} {c k : Nat} : isItem t c (k + 1) = true ↔ ∃ n, t.nodes[c]? = some n ∧ n.level = k := by
  show (match t.nodes[c]? with | some n => decide (n.level = k) | none => false) = true ↔ _
  cases t.nodes[c]? with
  | none => simp
  | some n => simp

theorem sum_set (f : Node → Nat) : ∀ (l : List Node) (i : Nat) (n n' : Node), l[i]? = some n →
    ((l.set i n').map f).sum + f n = (l.map f).sum + f n'
  | [], _, _, _, h => by simp at h
  | x :: l, 0, n, n', h => by
      have : x = n := by simpa using h
      subst this
      simp only [List.set_cons_zero, List.map_cons, List.sum_cons]; omega
  | x :: l, i + 1, n, n', h => by
      have := sum_set f l i n n' (by simpa using h)
      simp only [List.set_cons_succ, List.map_cons, List.sum_cons]; omega

theorem le_sum (f : Node → Nat) : ∀ (l : List Node) (i : Nat) (n : Node), l[i]? = some n → f n ≤ (l.map f).sum
  | [], _, _, h => by simp at h
  | x :: l, 0, n, h => by
      have : x = n := by simpa using h
      subst this
      simp only [List.map_cons, List.sum_cons]; omega
  | x :: l, i + 1, n, h => by
      have := le_sum f l i n (by simpa using h)
      simp only [List.map_cons, List.sum_cons]; omega

theorem two_le_sum (f : Node → Nat) : ∀ (l : List Node) (i j : Nat) (n n' : Node), l[i]? = some n → l[j]? = some n' → i ≠ j →
    f n + f n' ≤ (l.map f).sum
  | [], _, _, _, _, h, _, _ => by simp at h
  | x :: l, 0, 0, _, _, _, _, h => absurd rfl h
  | x :: l, 0, j + 1, n, n', h, h', _ => by
      have hx : x = n := by simpa using h
      subst hx
      have := le_sum f l j n' (by simpa using h')
      simp only [List.map_cons, List.sum_cons]; omega
  | x :: l, i + 1, 0, n, n', h, h', _ => by
      have hx : x = n' := by simpa using h'
      subst hx
      have := le_sum f l i n (by simpa using h)
      simp only [List.map_cons, List.sum_cons]; omega
  | x :: l, i + 1, j + 1, n, n', h, h', hne => by
      have := two_le_sum f l i j n n' (by simpa using h) (by simpa using h') (by omega)
      simp only [List.map_cons, List.sum_cons]; omega

theorem exists_of_sum (f : Node → Nat) : ∀ (l : List Node), 0 < (l.map f).sum → ∃ (i : Nat) (n : Node), l[i]? = some n ∧ 0 < f n
  | [], h => by simp at h
  | x :: l, h => by
      simp only [List.map_cons, List.sum_cons] at h
      by_cases hx : 0 < f x
      · exact ⟨0, x, by simp, hx⟩
      · obtain ⟨i, n, h1, h2⟩ := exists_of_sum f l (by omega)
        exact ⟨i + 1, n, by simpa using h1, h2⟩

theorem contrib_pos {n : Node} {c : Nat} (h : c ∈ n.ch) : 1 ≤ contrib n.level c n := by
  rw [contrib, if_pos rfl]; exact List.count_pos_iff.2 h

theorem occ_pos {t : Tree P} {i : Nat} {n : Node} {c : Nat} (h : t.nodes[i]? = some n) (hc : c ∈ n.ch) :
    1 ≤ occ t n.level c := Nat.le_trans (contrib_pos hc) (le_sum _ _ _ _ h)

theorem exists_parent {t : Tree P} {lvl c : Nat} (h : 0 < occ t lvl c) :
    ∃ (i : Nat) (n : Node), t.nodes[i]? = some n ∧ n.level = lvl ∧ c ∈ n.ch := by
  obtain ⟨i, n, h1, h2⟩ := exists_of_sum _ _ h
  refine ⟨i, n, h1, ?_⟩
  unfold contrib at h2
  split at h2
  · exact ⟨by assumption, List.count_pos_iff.1 h2⟩
  · omega

/-! ### Looking up boxes -/

theorem getNode_ok {t : Tree P} {i : Nat} {n : Node} (h : t.nodes[i]? = some n) : getNode t i = .ok n := by
  unfold getNode; rw [h]

theorem getNode_some {t : Tree P} {i : Nat} {n : Node} (h : getNode t i = .ok n) : t.nodes[i]? = some n := by
  unfold getNode at h
  split at h
  · next m hm => rw [hm]; cases h; rfl
  · cases h

theorem getBox_zero {t : Tree P} {c : Nat} {e : Entry P} (h : t.entries[c]? = some e) : getBox t c 0 = .ok e.box := by
  unfold getBox getEntry; rw [if_pos rfl, h]; rfl

theorem getBox_succ {t : Tree P} {c k : Nat} {n : Node} (h : t.nodes[c]? = some n) : getBox t c (k + 1) = .ok n.box := by
  unfold getBox; rw [if_neg (by omega), getNode_ok h]; rfl

theorem getBox_of_item {t : Tree P} {c lvl : Nat} (h : isItem t c lvl = true) : ∃ b, getBox t c lvl = .ok b := by
  cases lvl with
  | zero =>
    have hl : c < t.entries.length := by simpa [isItem] using h
    exact ⟨_, getBox_zero (List.getElem?_eq_getElem hl)⟩
  | succ k =>
    obtain ⟨n, hn, _⟩ := isItem_succ.1 h
    exact ⟨_, getBox_succ hn⟩

theorem boxesOf_ok {t : Tree P} {lvl : Nat} : ∀ {cs : List Nat}, (∀ c ∈ cs, isItem t c lvl = true) →
    ∃ bs, boxesOf t lvl cs = .ok bs ∧ bs.length = cs.length ∧ (∀ b ∈ bs, ∃ c ∈ cs, getBox t c lvl = .ok b) ∧
      (∀ c ∈ cs, ∃ b ∈ bs, getBox t c lvl = .ok b)
  | [], _ => ⟨[], rfl, rfl, by simp, by simp⟩
  | c :: cs, h => by
      obtain ⟨b, hb⟩ := getBox_of_item (h c (by simp))
      obtain ⟨bs, e1, e2, e3, e4⟩ := boxesOf_ok (t := t) (cs := cs) (fun x hx => h x (by simp [hx]))
      refine ⟨b :: bs, by rw [boxesOf, hb, Res.ok_bind, e1]; rfl, by simp [e2], ?_, ?_⟩
      · intro x hx
        rcases List.mem_cons.1 hx with rfl | hx
        · exact ⟨c, by simp, hb⟩
        · obtain ⟨c', h1, h2⟩ := e3 x hx; exact ⟨c', by simp [h1], h2⟩
      · intro x hx
        rcases List.mem_cons.1 hx with rfl | hx
        · exact ⟨b, by simp, hb⟩
        · obtain ⟨c', h1, h2⟩ := e4 x hx; exact ⟨c', by simp [h1], h2⟩

/-! ### The invariant -/

/-- The part of the invariant that does not know where the root is. `orph` are the things without a parent, with the level of the
    node they belong into; `ov` is a node that may be overfull; `m` is the minimal number of children of a non-root node;
    `tg` says whether boxes may not exceed the hull of the entries. -/
structure Core (m : Nat) (tg : Bool) (t : Tree P) (orph : List (Nat × Nat)) (ov : Option Nat) : Prop where
  ent : ∀ e ∈ t.entries, Good t.dims e.box
  nodeG : ∀ n ∈ t.nodes, Good t.dims n.box
  cnt : ∀ lvl c, occ t lvl c + orph.count (c, lvl) = if isItem t c lvl then 1 else 0
  le : ∀ (i : Nat) (n : Node) (c : Nat) (b : Box), t.nodes[i]? = some n → c ∈ n.ch → getBox t c n.level = .ok b → Le t.dims b n.box
  size : ∀ (i : Nat) (n : Node), t.nodes[i]? = some n → (ov ≠ some i → n.ch.length ≤ MAXN) ∧ (ov = some i → n.ch.length = MAXN + 1) ∧
    1 ≤ n.ch.length ∧ (t.root ≠ some i → m ≤ n.ch.length) ∧ (t.root = some i → 0 < n.level → 2 ≤ n.ch.length)
  tight : tg = true → ∀ H, (∀ e ∈ t.entries, Le t.dims e.box H) → ∀ n ∈ t.nodes, Le t.dims n.box H

/-- The root with its level, as a parentless item. -/
def rootC (t : Tree P) : List (Nat × Nat) :=
  match t.root with
  | some r => match t.nodes[r]? with
    | some n => [(r, n.level + 1)]
    | none => []
  | none => []

/-- There is a root, and no node is higher. -/
def Top (t : Tree P) : Prop :=
  ∃ r n, t.root = some r ∧ t.nodes[r]? = some n ∧ ∀ n' ∈ t.nodes, n'.level ≤ n.level

structure Inv (m : Nat) (tg : Bool) (t : Tree P) (orph : List (Nat × Nat)) (ov : Option Nat) : Prop where
  core : Core m tg t (rootC t ++ orph) ov
  top : Top t

section core
variable {m : Nat} {tg : Bool} {t : Tree P} {orph : List (Nat × Nat)} {ov : Option Nat}

theorem Core.item_of_child (h : Core m tg t orph ov) {i : Nat} {n : Node} {c : Nat} (hn : t.nodes[i]? = some n) (hc : c ∈ n.ch) :
    isItem t c n.level = true := by
  have h1 := h.cnt n.level c
  have h2 := occ_pos hn hc
  cases hi : isItem t c n.level with
  | true => rfl
  | false => rw [hi] at h1; simp at h1; omega

theorem Core.item_of_orph (h : Core m tg t orph ov) {c lvl : Nat} (hc : (c, lvl) ∈ orph) : isItem t c lvl = true := by
  have h1 := h.cnt lvl c
  have h2 := List.count_pos_iff.2 hc
  cases hi : isItem t c lvl with
  | true => rfl
  | false => rw [hi] at h1; simp at h1; omega

/-- An orphan has no parent. -/
theorem Core.no_parent (h : Core m tg t orph ov) {c lvl : Nat} (hc : (c, lvl) ∈ orph) {i : Nat} {n : Node} (hn : t.nodes[i]? = some n)
    (hl : n.level = lvl) : c ∉ n.ch := by
  intro hm
  have h1 := h.cnt lvl c
  have h2 := List.count_pos_iff.2 hc
  have h3 := occ_pos hn hm
  rw [hl] at h3
  split at h1 <;> omega

/-- The parent is unique. -/
theorem Core.parent_unique (h : Core m tg t orph ov) {c : Nat} {i j : Nat} {n n' : Node} (hn : t.nodes[i]? = some n)
    (hn' : t.nodes[j]? = some n') (hl : n.level = n'.level) (hc : c ∈ n.ch) (hc' : c ∈ n'.ch) : i = j := by
  refine Decidable.byContradiction fun hne => ?_
  have h1 := h.cnt n.level c
  have h2 := two_le_sum (contrib n.level c) t.nodes i j n n' hn hn' hne
  have h3 := contrib_pos hc
  have h4 := contrib_pos hc'
  rw [← hl] at h4
  have h5 : occ t n.level c = (t.nodes.map (contrib n.level c)).sum := rfl
  split at h1 <;> omega

theorem Core.nodup (h : Core m tg t orph ov) {i : Nat} {n : Node} (hn : t.nodes[i]? = some n) : n.ch.Nodup := by
  rw [List.nodup_iff_count]
  intro c
  have h1 := h.cnt n.level c
  have h2 : contrib n.level c n ≤ occ t n.level c := le_sum (contrib n.level c) t.nodes i n hn
  rw [contrib, if_pos rfl] at h2
  split at h1 <;> omega

theorem Core.good_of_getBox (h : Core m tg t orph ov) {c lvl : Nat} {b : Box} (hb : getBox t c lvl = .ok b) : Good t.dims b := by
  unfold getBox at hb
  split at hb
  · unfold getEntry at hb
    split at hb
    · next e he => cases hb; exact h.ent e (List.mem_of_getElem? he)
    · cases hb
  · unfold getNode at hb
    split at hb
    · next e he => cases hb; exact h.nodeG e (List.mem_of_getElem? he)
    · cases hb

theorem Core.tight_getBox (h : Core m tg t orph ov) (ht : tg = true) {c lvl : Nat} {b : Box} (hb : getBox t c lvl = .ok b) {H : Box}
    (hH : ∀ e ∈ t.entries, Le t.dims e.box H) : Le t.dims b H := by
  unfold getBox at hb
  split at hb
  · unfold getEntry at hb
    split at hb
    · next e he => cases hb; exact hH e (List.mem_of_getElem? he)
    · cases hb
  · unfold getNode at hb
    split at hb
    · next e he => cases hb; exact h.tight ht H hH e (List.mem_of_getElem? he)
    · cases hb

/-- The same for another list of orphans with the same elements. -/
theorem Core.perm (h : Core m tg t orph ov) {orph' : List (Nat × Nat)} (hp : orph.Perm orph') : Core m tg t orph' ov where
  ent := h.ent
  nodeG := h.nodeG
  cnt lvl c := by rw [← hp.count_eq]; exact h.cnt lvl c
  le := h.le
  size := h.size
  tight := h.tight

/-! ### Elementary changes -/

theorem setNode_get {t : Tree P} {i : Nat} {n : Node} (hi : i < t.nodes.length) (j : Nat) :
    (setNode t i n).nodes[j]? = if i = j then some n else t.nodes[j]? := by
  show (t.nodes.set i n)[j]? = _
  rw [List.getElem?_set]
  split
  · next h => subst h; first | rfl | rw [if_pos hi]
  · rfl

theorem lt_of_get {α : Type} {l : List α} {i : Nat} {a : α} (h : l[i]? = some a) : i < l.length := by
  rw [List.getElem?_eq_some_iff] at h; exact h.1

theorem isItem_setNode {i : Nat} {n n' : Node} (hn : t.nodes[i]? = some n) (hl : n'.level = n.level) (c lvl : Nat) :
    isItem (setNode t i n') c lvl = isItem t c lvl := by
  cases lvl with
  | zero => rfl
  | succ k =>
    rw [Bool.eq_iff_iff, isItem_succ, isItem_succ, setNode_get (lt_of_get hn)]
    by_cases h : i = c
    · subst h; rw [if_pos rfl, hn]; simp [hl]
    · rw [if_neg h]

theorem getBox_setNode_ne {i c lvl : Nat} {n' : Node} (h : lvl = 0 ∨ c ≠ i) : getBox (setNode t i n') c lvl = getBox t c lvl := by
  cases lvl with
  | zero => rfl
  | succ k =>
    rcases h with h | h
    · omega
    · unfold getBox getNode
      show _ = _
      rw [if_neg (by omega), if_neg (by omega)]
      show (match (t.nodes.set i n')[c]? with | some n => Res.ok n | none => Res.ub).bind _ = _
      rw [List.getElem?_set_ne (by omega)]
      rfl

theorem getBox_setNode_eq {i k : Nat} {n' : Node} (hi : i < t.nodes.length) : getBox (setNode t i n') i (k + 1) = .ok n'.box :=
  getBox_succ (by rw [setNode_get hi, if_pos rfl])

theorem mem_setNode {i : Nat} {n' x : Node} (h : x ∈ (setNode t i n').nodes) : x = n' ∨ x ∈ t.nodes := by
  rcases List.mem_or_eq_of_mem_set h with h | h
  · exact Or.inr h
  · exact Or.inl h

theorem occ_setNode {i : Nat} {n n' : Node} (hn : t.nodes[i]? = some n) (lvl c : Nat) :
    occ (setNode t i n') lvl c + contrib lvl c n = occ t lvl c + contrib lvl c n' := sum_set _ _ _ _ _ hn

/-- Changing the box of a node. -/
theorem Core.setBox (h : Core m tg t orph ov) {i : Nat} {n : Node} {B : Box} (hn : t.nodes[i]? = some n) (hB : Good t.dims B)
    (hkids : ∀ c ∈ n.ch, ∀ b, getBox t c n.level = .ok b → Le t.dims b B)
    (hpar : ∀ (j : Nat) (p : Node), t.nodes[j]? = some p → p.level = n.level + 1 → i ∈ p.ch → Le t.dims B p.box)
    (htight : tg = true → ∀ H, (∀ e ∈ t.entries, Le t.dims e.box H) → Le t.dims B H) :
    Core m tg (setNode t i { n with box := B }) orph ov where
  ent := h.ent
  nodeG x hx := by
    rcases mem_setNode hx with rfl | hx
    · exact hB
    · exact h.nodeG x hx
  cnt lvl c := by
    rw [isItem_setNode (n' := { n with box := B }) hn rfl, ← h.cnt lvl c]
    have := occ_setNode (n' := { n with box := B }) hn lvl c
    have e : contrib lvl c { n with box := B } = contrib lvl c n := rfl
    omega
  le j p c b hj hc hb := by
    rw [setNode_get (lt_of_get hn)] at hj
    have hlt := lt_of_get hn
    by_cases hji : i = j
    · rw [if_pos hji] at hj
      cases hj
      -- the changed node as a parent
      have hbb : getBox t c n.level = .ok b := by
        rw [← hb]; symm
        apply getBox_setNode_ne
        by_cases h0 : n.level = 0
        · exact Or.inl h0
        · right
          rintro rfl
          have hit := h.item_of_child hn hc
          obtain ⟨k, hk⟩ : ∃ k, n.level = k + 1 := ⟨n.level - 1, by omega⟩
          rw [hk] at hit
          rw [isItem_succ, hn] at hit
          simp at hit
          omega
      exact hkids c hc b hbb
    · rw [if_neg hji] at hj
      by_cases hci : p.level = 0 ∨ c ≠ i
      · rw [getBox_setNode_ne hci] at hb
        exact h.le j p c b hj hc hb
      · -- the changed node as a child
        have h0 : p.level ≠ 0 := fun h0 => hci (Or.inl h0)
        have hc' : c = i := Decidable.byContradiction fun hne => hci (Or.inr hne)
        subst hc'
        obtain ⟨k, hk⟩ : ∃ k, p.level = k + 1 := ⟨p.level - 1, by omega⟩
        rw [hk, getBox_setNode_eq hlt] at hb
        cases hb
        have hit := h.item_of_child hj hc
        rw [hk] at hit
        rw [isItem_succ, hn] at hit
        simp at hit
        exact hpar j p hj (by omega) hc
  size j p hj := by
    rw [setNode_get (lt_of_get hn)] at hj
    by_cases hji : i = j
    · rw [if_pos hji] at hj
      cases hj
      subst hji
      exact h.size i n hn
    · rw [if_neg hji] at hj
      exact h.size j p hj
  tight ht H hH x hx := by
    rcases mem_setNode hx with rfl | hx
    · exact htight ht H hH
    · exact h.tight ht H hH x hx

/-- Changing the children of a node (the box stays). -/
theorem Core.setKids (h : Core m tg t orph ov) {i : Nat} {n : Node} {cs : List Nat} {orph' : List (Nat × Nat)} {ov' : Option Nat}
    (hn : t.nodes[i]? = some n)
    (hcount : ∀ lvl c, contrib lvl c { n with ch := cs } + orph'.count (c, lvl) = contrib lvl c n + orph.count (c, lvl))
    (hle : ∀ c ∈ cs, ∀ b, getBox t c n.level = .ok b → Le t.dims b n.box)
    (hov : ∀ j, j ≠ i → (ov = some j ↔ ov' = some j))
    (hsz : (ov' ≠ some i → cs.length ≤ MAXN) ∧ (ov' = some i → cs.length = MAXN + 1) ∧ 1 ≤ cs.length ∧
      (t.root ≠ some i → m ≤ cs.length) ∧ (t.root = some i → 0 < n.level → 2 ≤ cs.length)) :
    Core m tg (setNode t i { n with ch := cs }) orph' ov' where
  ent := h.ent
  nodeG x hx := by
    rcases mem_setNode hx with rfl | hx
    · exact h.nodeG n (List.mem_of_getElem? hn)
    · exact h.nodeG x hx
  cnt lvl c := by
    rw [isItem_setNode (n' := { n with ch := cs }) hn rfl, ← h.cnt lvl c]
    have := occ_setNode (n' := { n with ch := cs }) hn lvl c
    have := hcount lvl c
    omega
  le j p c b hj hc hb := by
    have hlt := lt_of_get hn
    have hbb : getBox (setNode t i { n with ch := cs }) c p.level = getBox t c p.level := by
      by_cases hci : p.level = 0 ∨ c ≠ i
      · exact getBox_setNode_ne hci
      · have h0 : p.level ≠ 0 := fun h0 => hci (Or.inl h0)
        have hc' : c = i := Decidable.byContradiction fun hne => hci (Or.inr hne)
        subst hc'
        obtain ⟨k, hk⟩ : ∃ k, p.level = k + 1 := ⟨p.level - 1, by omega⟩
        rw [hk, getBox_setNode_eq hlt, getBox_succ hn]
    rw [hbb] at hb
    rw [setNode_get hlt] at hj
    by_cases hji : i = j
    · rw [if_pos hji] at hj
      cases hj
      exact hle c hc b hb
    · rw [if_neg hji] at hj
      exact h.le j p c b hj hc hb
  size j p hj := by
    rw [setNode_get (lt_of_get hn)] at hj
    by_cases hji : i = j
    · rw [if_pos hji] at hj
      cases hj
      subst hji
      exact hsz
    · rw [if_neg hji] at hj
      have hne : j ≠ i := fun he => hji he.symm
      obtain ⟨s1, s2, s3⟩ := h.size j p hj
      exact ⟨fun hx => s1 (fun hy => hx ((hov j hne).1 hy)), fun hx => s2 ((hov j hne).2 hx), s3⟩
  tight ht H hH x hx := by
    rcases mem_setNode hx with rfl | hx
    · exact h.tight ht H hH n (List.mem_of_getElem? hn)
    · exact h.tight ht H hH x hx

/-- A new node made of orphans; it becomes an orphan itself. -/
def addNode (t : Tree P) (n : Node) : Tree P := { t with nodes := t.nodes ++ [n] }

theorem addNode_get_old {t : Tree P} {n : Node} {j : Nat} {p : Node} (h : t.nodes[j]? = some p) : (addNode t n).nodes[j]? = some p := by
  show (t.nodes ++ [n])[j]? = _
  rw [List.getElem?_append_left (lt_of_get h)]; exact h

theorem addNode_get_new {t : Tree P} {n : Node} : (addNode t n).nodes[t.nodes.length]? = some n := by
  show (t.nodes ++ [n])[t.nodes.length]? = _
  simp

theorem addNode_get {t : Tree P} {n : Node} {j : Nat} {p : Node} (h : (addNode t n).nodes[j]? = some p) :
    t.nodes[j]? = some p ∨ (j = t.nodes.length ∧ p = n) := by
  have h' : (t.nodes ++ [n])[j]? = some p := h
  rw [List.getElem?_append] at h'
  split at h'
  · exact Or.inl h'
  · right
    have := lt_of_get h'
    have hj : j - t.nodes.length = 0 := by simpa using this
    rw [hj] at h'
    simp at h'
    exact ⟨by omega, h'.symm⟩

theorem isItem_addNode_zero {t : Tree P} {n : Node} {c : Nat} : isItem (addNode t n) c 0 = isItem t c 0 := rfl

theorem isItem_addNode {t : Tree P} {n : Node} {c lvl : Nat} (h : isItem t c lvl = true) : isItem (addNode t n) c lvl = true := by
  cases lvl with
  | zero => exact h
  | succ k =>
    rw [isItem_succ] at h ⊢
    obtain ⟨p, hp, hl⟩ := h
    exact ⟨p, addNode_get_old hp, hl⟩

theorem getBox_addNode {t : Tree P} {n : Node} {c lvl : Nat} (h : isItem t c lvl = true) : getBox (addNode t n) c lvl = getBox t c lvl := by
  cases lvl with
  | zero => rfl
  | succ k =>
    obtain ⟨p, hp, _⟩ := isItem_succ.1 h
    rw [getBox_succ hp, getBox_succ (addNode_get_old hp)]

theorem Core.addNode (h : Core m tg t orph ov) {n : Node} {orph' : List (Nat × Nat)} (hB : Good t.dims n.box)
    (hcount : ∀ lvl c, contrib lvl c n + orph'.count (c, lvl) = orph.count (c, lvl))
    (hle : ∀ c ∈ n.ch, ∀ b, getBox t c n.level = .ok b → Le t.dims b n.box)
    (hov : ov ≠ some t.nodes.length)
    (hroot : t.root ≠ some t.nodes.length)
    (hsz : n.ch.length ≤ MAXN ∧ 1 ≤ n.ch.length ∧ m ≤ n.ch.length)
    (htight : tg = true → ∀ H, (∀ e ∈ t.entries, Le t.dims e.box H) → Le t.dims n.box H) :
    Core m tg (Tree.addNode t n) ((t.nodes.length, n.level + 1) :: orph') ov where
  ent := h.ent
  nodeG x hx := by
    rcases List.mem_append.1 hx with hx | hx
    · exact h.nodeG x hx
    · rw [List.mem_singleton.1 hx]; exact hB
  cnt lvl c := by
    have e1 : occ (Tree.addNode t n) lvl c = occ t lvl c + contrib lvl c n := by
      show ((t.nodes ++ [n]).map _).sum = _
      rw [List.map_append, List.sum_append]; simp [occ]
    have e2 := h.cnt lvl c
    have e3 := hcount lvl c
    rw [e1, List.count_cons]
    by_cases hnew : c = t.nodes.length ∧ lvl = n.level + 1
    · obtain ⟨rfl, rfl⟩ := hnew
      have i1 : isItem t t.nodes.length (n.level + 1) = false := by
        rw [← Bool.not_eq_true, isItem_succ, List.getElem?_eq_none (Nat.le_refl _)]; simp
      have i2 : isItem (Tree.addNode t n) t.nodes.length (n.level + 1) = true := by
        rw [isItem_succ, addNode_get_new]; simp
      rw [i1] at e2
      rw [i2]
      simp at e2 ⊢
      omega
    · have i1 : isItem (Tree.addNode t n) c lvl = isItem t c lvl := by
        cases lvl with
        | zero => rfl
        | succ k =>
          cases hi : isItem t c (k + 1) with
          | true => exact isItem_addNode hi
          | false =>
            rw [← Bool.not_eq_true, isItem_succ] at hi ⊢
            rintro ⟨p, hp, hl⟩
            rcases addNode_get hp with hp | ⟨rfl, rfl⟩
            · exact hi ⟨p, hp, hl⟩
            · exact hnew ⟨rfl, by omega⟩
      rw [i1, ← e2, if_neg]
      · omega
      · intro heq
        simp only [beq_iff_eq, Prod.mk.injEq] at heq
        exact hnew ⟨heq.1.symm, heq.2.symm⟩
  le j p c b hj hc hb := by
    rcases addNode_get hj with hj | ⟨rfl, rfl⟩
    · rw [getBox_addNode (h.item_of_child hj hc)] at hb
      exact h.le j p c b hj hc hb
    · have h1 : 0 < orph.count (c, p.level) := by
        have h1 := hcount p.level c
        have h2 := contrib_pos hc
        omega
      rw [getBox_addNode (h.item_of_orph (List.count_pos_iff.1 h1))] at hb
      exact hle c hc b hb
  size j p hj := by
    rcases addNode_get hj with hj | ⟨rfl, rfl⟩
    · exact h.size j p hj
    · exact ⟨fun _ => hsz.1, fun hx => absurd hx hov, hsz.2.1, fun _ => hsz.2.2, fun hx => absurd hx hroot⟩
  tight ht H hH x hx := by
    rcases List.mem_append.1 hx with hx | hx
    · exact h.tight ht H hH x hx
    · rw [List.mem_singleton.1 hx]; exact htight ht H hH

end core

end Verif.Tree
