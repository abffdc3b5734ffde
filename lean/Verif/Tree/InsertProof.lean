import Verif.Tree.Inv
/-
Insertion keeps the invariant.
-/
namespace Verif.Tree
open Verif Verif.ND

variable {P : Type}

/-! ### Small steps of the model -/

theorem addChildren_ok : ∀ (cs : List Nat) (n : Node), n.ch.length + cs.length ≤ MAXN + 1 →
    addChildren n cs = .ok { n with ch := n.ch ++ cs }
  | [], n, _ => by simp [addChildren]
  | c :: cs, n, h => by
      have h' : n.ch.length ≤ MAXN := by simp only [List.length_cons] at h; omega
      rw [addChildren, addChild, decide_eq_true h', Res.assert_true, Res.ok_bind, Res.ok_bind,
        addChildren_ok cs { n with ch := n.ch ++ [c] } (by simp at h ⊢; omega)]
      simp

theorem boxesOf_congr {t t' : Tree P} {lvl : Nat} : ∀ {cs : List Nat}, (∀ c ∈ cs, getBox t' c lvl = getBox t c lvl) →
    boxesOf t' lvl cs = boxesOf t lvl cs
  | [], _ => rfl
  | c :: cs, h => by rw [boxesOf, boxesOf, h c (by simp), boxesOf_congr (fun x hx => h x (by simp [hx]))]

theorem setNode_addNode_new {t : Tree P} {n n' : Node} : setNode (addNode t n) t.nodes.length n' = addNode t n' := by
  unfold setNode addNode
  simp

/-- `build_new_node` followed by `recalculate_bbox`. -/
theorem build_recalc {t : Tree P} {lvl : Nat} {cs : List Nat} {bs : List Box} (hi : ∀ c ∈ cs, isItem t c lvl = true)
    (hl : cs.length ≤ MAXN + 1) (hbs : boxesOf t lvl cs = .ok bs) :
    buildNode t lvl cs = .ok (addNode t ⟨Box.reset t.dims, lvl, cs⟩, t.nodes.length) ∧
    recalc (addNode t ⟨Box.reset t.dims, lvl, cs⟩) t.nodes.length = .ok (addNode t ⟨bs.foldl Box.extend (Box.reset t.dims), lvl, cs⟩) := by
  constructor
  · rw [buildNode, addChildren_ok _ _ (by simpa using hl)]
    rfl
  · rw [recalc, getNode_ok addNode_get_new, Res.ok_bind,
      boxesOf_congr (fun c hc => getBox_addNode (hi c hc)), hbs, Res.ok_bind, setNode_addNode_new]
    rfl

theorem foldl_inv {α β : Type} (Q : β → Prop) (f : β → α → β) : ∀ (l : List α) (b : β), Q b → (∀ b, ∀ a ∈ l, Q b → Q (f b a)) →
    Q (l.foldl f b)
  | [], _, h, _ => h
  | a :: l, b, h, hf => foldl_inv Q f l (f b a) (hf b a (by simp) h) (fun b x hx => hf b x (by simp [hx]))

theorem trySplits_lt {dims : Nat} {bx : Nat → Box} {edge : Edge} {l : List Nat} {a : AxisBest} (h : a.split < 8) :
    (trySplits dims bx edge l a).split < 8 := by
  unfold trySplits
  refine foldl_inv (fun a : AxisBest => a.split < 8) _ _ a h fun b x hx hb => ?_
  have hx' : x < 8 := List.mem_range.1 hx
  dsimp only
  split
  · exact hx'
  · exact hb

theorem sortEdge_perm (S : Sorter) (bx : Nat → Box) (axis : Nat) (e : Edge) (l : List Nat) : (sortEdge S bx axis e l).Perm l := by
  cases e <;> exact S.perm _ _

theorem pickAxis_lt {best : SplitBest} {axis : Nat} {a : AxisBest} (h : best.split < 8) (h2 : a.split < 8) :
    (pickAxis best axis a).split < 8 := by
  unfold pickAxis
  split
  · exact h2
  · exact h

theorem axisStep_spec (S : Sorter) (dims : Nat) (bx : Nat → Box) (s : List Nat × SplitBest) (axis : Nat) (h : s.2.split < 8) :
    (axisStep S dims bx s axis).1.Perm s.1 ∧ (axisStep S dims bx s axis).2.split < 8 := by
  refine ⟨(sortEdge_perm S bx axis .upper _).trans (sortEdge_perm S bx axis .lower _), ?_⟩
  unfold axisStep
  exact pickAxis_lt h (trySplits_lt (trySplits_lt (Nat.zero_lt_succ 7)))

theorem chooseSplit_spec (S : Sorter) (dims : Nat) (cs : List (Nat × Box)) (ch : List Nat) :
    (chooseSplit S dims cs ch).1.Perm ch ∧ 2 ≤ (chooseSplit S dims cs ch).2 ∧ (chooseSplit S dims cs ch).2 ≤ 9 := by
  have h : ((List.range dims).foldl (axisStep S dims (boxAt cs)) (ch, ⟨0, .lower, 0, U64 - 1⟩)).1.Perm ch ∧
      ((List.range dims).foldl (axisStep S dims (boxAt cs)) (ch, ⟨0, .lower, 0, U64 - 1⟩)).2.split < 8 := by
    refine foldl_inv (fun s : List Nat × SplitBest => s.1.Perm ch ∧ s.2.split < 8) _ _ _ ⟨List.Perm.refl _, Nat.zero_lt_succ 7⟩ ?_
    intro s axis _ hs
    obtain ⟨h1, h2⟩ := axisStep_spec S dims (boxAt cs) s axis hs.2
    exact ⟨h1.trans hs.1, h2⟩
  unfold chooseSplit
  generalize (List.range dims).foldl (axisStep S dims (boxAt cs)) (ch, ⟨0, .lower, 0, U64 - 1⟩) = r at h ⊢
  obtain ⟨h1, h2⟩ := h
  refine ⟨?_, by show 2 ≤ 2 + r.2.split; omega, by show 2 + r.2.split ≤ 9; omega⟩
  show (finalOrder S dims (boxAt cs) r.1 r.2.axis r.2.edge).Perm ch
  unfold finalOrder
  cases r.2.edge with
  | lower => exact (sortEdge_perm S _ _ _ _).trans h1
  | upper =>
    dsimp only
    split
    · exact (sortEdge_perm S _ _ _ _).trans h1
    · exact h1

theorem minElem_mem {α : Type} (f : α → α → Bool) : ∀ (l : List α) (a : α), minElem f a l ∈ a :: l
  | [], a => by simp [minElem]
  | x :: l, a => by
      rw [minElem]
      have := minElem_mem f l (if f x a then x else a)
      split at this
      · simp only [List.mem_cons] at this ⊢; rcases this with h | h <;> simp [*]
      · simp only [List.mem_cons] at this ⊢; rcases this with h | h <;> simp [*]

section core
variable {m : Nat} {tg : Bool} {t : Tree P} {orph : List (Nat × Nat)} {ov : Option Nat}

theorem Core.kids_items (h : Core m tg t orph ov) {i : Nat} {n : Node} (hn : t.nodes[i]? = some n) :
    ∀ c ∈ n.ch, isItem t c n.level = true := fun _ hc => h.item_of_child hn hc

/-- `choose_subtree` picks a child. -/
theorem Core.chooseSubtree_ok (h : Core m tg t orph ov) {i : Nat} {n : Node} (hn : t.nodes[i]? = some n) (h0 : 0 < n.level)
    {slot lvl : Nat} (hs : isItem t slot lvl = true) :
    ∃ c ∈ n.ch, chooseSubtree t slot lvl i = .ok c := by
  obtain ⟨b, hb⟩ := getBox_of_item hs
  obtain ⟨bs, hbs, hlen, _, _⟩ := boxesOf_ok (h.kids_items hn)
  have hsz := (h.size i n hn).2.2.1
  unfold chooseSubtree
  rw [getNode_ok hn, Res.ok_bind, hb, Res.ok_bind, decide_eq_true (show 0 < n.ch.length by omega), Res.assert_true, Res.ok_bind,
    decide_eq_true h0, Res.assert_true, Res.ok_bind, hbs]
  cases hch : n.ch with
  | nil => rw [hch] at hsz; simp at hsz
  | cons c0 cs =>
    have hit := h.item_of_child hn (c := c0) (by simp [hch])
    obtain ⟨k, hk⟩ : ∃ k, n.level = k + 1 := ⟨n.level - 1, by omega⟩
    rw [hk] at hit
    obtain ⟨nc, hnc, _⟩ := isItem_succ.1 hit
    dsimp only
    rw [getNode_ok hnc, Res.ok_bind, Res.ok_bind]
    cases hz : (c0 :: cs).zip bs with
    | nil =>
      have : ((c0 :: cs).zip bs).length = 0 := by rw [hz]; rfl
      rw [List.length_zip, hlen, hch] at this
      simp at this
    | cons p ps =>
      dsimp only
      have hfst : ∀ q ∈ p :: ps, q.1 ∈ c0 :: cs := fun q hq => by
        rw [← hz] at hq
        obtain ⟨a, b⟩ := q
        exact (List.of_mem_zip hq).1
      split
      · exact ⟨_, hfst _ (minElem_mem _ ps p), rfl⟩
      · exact ⟨_, hfst _ (minElem_mem _ ps p), rfl⟩

/-- `recalculate_bbox` of a node of the tree. -/
theorem Core.recalc (h : Core m tg t orph ov) {i : Nat} {n : Node} (hn : t.nodes[i]? = some n) :
    ∃ B, recalc t i = .ok (setNode t i { n with box := B }) ∧ Core m tg (setNode t i { n with box := B }) orph ov ∧ Le t.dims B n.box := by
  obtain ⟨bs, hbs, hlen, hb1, hb2⟩ := boxesOf_ok (h.kids_items hn)
  have hne : bs ≠ [] := by
    rintro rfl
    have := (h.size i n hn).2.2.1
    simp only [List.length_nil] at hlen; omega
  obtain ⟨g1, g2, g3⟩ := hull_spec (d := t.dims) hne (fun b hb => by
    obtain ⟨c, hc, hcb⟩ := hb1 b hb; exact h.good_of_getBox hcb)
  have hle : Le t.dims (bs.foldl Box.extend (Box.reset t.dims)) n.box := g3 n.box fun b hb => by
    obtain ⟨c, hc, hcb⟩ := hb1 b hb
    exact h.le i n c b hn hc hcb
  refine ⟨_, by rw [Tree.recalc, getNode_ok hn, Res.ok_bind, hbs, Res.ok_bind], ?_, hle⟩
  refine h.setBox hn g1 ?_ ?_ ?_
  · intro c hc b hcb
    obtain ⟨b', hb', hcb'⟩ := hb2 c hc
    rw [hcb] at hcb'; cases hcb'
    exact g2 b hb'
  · intro j p hj hl hc
    exact hle.trans (h.le j p i n.box hj hc (by rw [hl]; exact getBox_succ hn))
  · intro ht H hH
    refine g3 H fun b hb => ?_
    obtain ⟨c, hc, hcb⟩ := hb1 b hb
    exact h.tight_getBox ht hcb hH

/-- A new node made of orphans, with its box recalculated. -/
theorem Core.build (h : Core m tg t orph ov) {lvl : Nat} {cs : List Nat} {orph' : List (Nat × Nat)}
    (hcount : ∀ l c, (if lvl = l then cs.count c else 0) + orph'.count (c, l) = orph.count (c, l))
    (hov : ov ≠ some t.nodes.length) (hroot : t.root ≠ some t.nodes.length) (hsz : cs.length ≤ MAXN ∧ 1 ≤ cs.length ∧ m ≤ cs.length) :
    ∃ B, buildNode t lvl cs = .ok (Tree.addNode t ⟨Box.reset t.dims, lvl, cs⟩, t.nodes.length) ∧
      Tree.recalc (Tree.addNode t ⟨Box.reset t.dims, lvl, cs⟩) t.nodes.length = .ok (Tree.addNode t ⟨B, lvl, cs⟩) ∧
      Core m tg (Tree.addNode t ⟨B, lvl, cs⟩) ((t.nodes.length, lvl + 1) :: orph') ov ∧
      (∀ H, (∀ c ∈ cs, ∀ b, getBox t c lvl = .ok b → Le t.dims b H) → Le t.dims B H) := by
  have hit : ∀ c ∈ cs, isItem t c lvl = true := by
    intro c hc
    have h1 := hcount lvl c
    rw [if_pos rfl] at h1
    have h2 := List.count_pos_iff.2 hc
    exact h.item_of_orph (List.count_pos_iff.1 (by omega))
  obtain ⟨bs, hbs, hlen, hb1, hb2⟩ := boxesOf_ok hit
  have hne : bs ≠ [] := by
    rintro rfl
    simp only [List.length_nil] at hlen; omega
  obtain ⟨g1, g2, g3⟩ := hull_spec (d := t.dims) hne (fun b hb => by
    obtain ⟨c, hc, hcb⟩ := hb1 b hb; exact h.good_of_getBox hcb)
  obtain ⟨r1, r2⟩ := build_recalc hit (by omega) hbs
  refine ⟨_, r1, r2, ?_, fun H hH => g3 H fun b hb => by
    obtain ⟨c, hc, hcb⟩ := hb1 b hb; exact hH c hc b hcb⟩
  refine h.addNode (n := ⟨bs.foldl Box.extend (Box.reset t.dims), lvl, cs⟩) g1 hcount ?_ hov hroot hsz ?_
  · intro c hc b hcb
    obtain ⟨b', hb', hcb'⟩ := hb2 c hc
    rw [hcb] at hcb'; cases hcb'
    exact g2 b hb'
  · intro ht H hH
    refine g3 H fun b hb => ?_
    obtain ⟨c, hc, hcb⟩ := hb1 b hb
    exact h.tight_getBox ht hcb hH

end core

/-! ### Root bookkeeping -/

theorem Top.setNode {t : Tree P} (h : Top t) {i : Nat} {n n' : Node} (hn : t.nodes[i]? = some n) (hl : n'.level = n.level) :
    Top (setNode t i n') := by
  obtain ⟨r, nr, h1, h2, h3⟩ := h
  have hmem : ∀ x ∈ (Tree.setNode t i n').nodes, x.level ≤ nr.level := by
    intro x hx
    rcases mem_setNode hx with rfl | hx
    · rw [hl]; exact h3 n (List.mem_of_getElem? hn)
    · exact h3 x hx
  by_cases hir : i = r
  · subst hir
    rw [hn] at h2; cases h2
    refine ⟨i, n', h1, by rw [setNode_get (lt_of_get hn), if_pos rfl], ?_⟩
    rw [hl]; exact hmem
  · exact ⟨r, nr, h1, by rw [setNode_get (lt_of_get hn), if_neg hir]; exact h2, hmem⟩

theorem Top.addNode {t : Tree P} (h : Top t) {n n' : Node} (hm : n' ∈ t.nodes) (hl : n.level ≤ n'.level) : Top (addNode t n) := by
  obtain ⟨r, nr, h1, h2, h3⟩ := h
  refine ⟨r, nr, h1, addNode_get_old h2, fun x hx => ?_⟩
  rcases List.mem_append.1 hx with hx | hx
  · exact h3 x hx
  · rw [List.mem_singleton.1 hx]; have := h3 n' hm; omega

theorem rootC_of {t : Tree P} {r : Nat} {n : Node} (h1 : t.root = some r) (h2 : t.nodes[r]? = some n) : rootC t = [(r, n.level + 1)] := by
  unfold rootC; rw [h1]; dsimp only; rw [h2]

theorem rootC_setNode {t : Tree P} (h : Top t) {i : Nat} {n n' : Node} (hn : t.nodes[i]? = some n) (hl : n'.level = n.level) :
    rootC (setNode t i n') = rootC t := by
  obtain ⟨r, nr, h1, h2, _⟩ := h
  rw [rootC_of h1 h2]
  by_cases hir : i = r
  · subst hir
    rw [hn] at h2; cases h2
    rw [rootC_of (t := setNode t i n') h1 (by rw [setNode_get (lt_of_get hn), if_pos rfl]), hl]
  · exact rootC_of (t := setNode t i n') h1 (by rw [setNode_get (lt_of_get hn), if_neg hir]; exact h2)

theorem rootC_addNode {t : Tree P} (h : Top t) {n : Node} : rootC (addNode t n) = rootC t := by
  obtain ⟨r, nr, h1, h2, _⟩ := h
  rw [rootC_of h1 h2]
  exact rootC_of (t := addNode t n) h1 (addNode_get_old h2)

theorem Top.root_ne {t : Tree P} (h : Top t) : t.root ≠ some t.nodes.length := by
  obtain ⟨r, nr, h1, h2, _⟩ := h
  rw [h1]
  intro he
  have : r = t.nodes.length := by simpa using he
  have := lt_of_get h2
  omega

/-- Making another node the root. -/
theorem Core.setRoot {m : Nat} {tg : Bool} {t : Tree P} {orph : List (Nat × Nat)} {ov : Option Nat} (h : Core m tg t orph ov) {r : Nat} {nr : Node}
    (hr : t.nodes[r]? = some nr) (h2 : 0 < nr.level → 2 ≤ nr.ch.length) (ho : ∀ (i : Nat) (n : Node), t.root = some i → t.nodes[i]? = some n → m ≤ n.ch.length) :
    Core m tg { t with root := some r } orph ov where
  ent := h.ent
  nodeG := h.nodeG
  cnt := h.cnt
  le := h.le
  size i n hn := by
    obtain ⟨s1, s2, s3, s4, s5⟩ := h.size i n hn
    refine ⟨s1, s2, s3, fun _ => ?_, fun he h0 => ?_⟩
    · by_cases hi : t.root = some i
      · exact ho i n hi hn
      · exact s4 hi
    · have he' : r = i := by simpa using he
      subst he'
      rw [show t.nodes[r]? = some n from hn] at hr; cases hr; exact h2 h0
  tight := h.tight

/-! ### Splitting -/

/-- Node slots stay in use with the same level. -/
def Lev (t t' : Tree P) : Prop :=
  ∀ (j : Nat) (p : Node), t.nodes[j]? = some p → ∃ p', t'.nodes[j]? = some p' ∧ p'.level = p.level

theorem Lev.setNode {t : Tree P} {i : Nat} {n n' : Node} (hn : t.nodes[i]? = some n) (hl : n'.level = n.level) : Lev t (setNode t i n') := by
  intro j p hj
  rw [setNode_get (lt_of_get hn)]
  by_cases h : i = j
  · subst h
    rw [hn] at hj; cases hj
    rw [if_pos rfl]; exact ⟨_, rfl, hl⟩
  · rw [if_neg h]; exact ⟨p, hj, rfl⟩

theorem Lev.addNode (t : Tree P) (n : Node) : Lev t (addNode t n) := fun _ p hj => ⟨p, addNode_get_old hj, rfl⟩

theorem Lev.trans {a b c : Tree P} (h1 : Lev a b) (h2 : Lev b c) : Lev a c := by
  intro j p hj
  obtain ⟨p', e1, e2⟩ := h1 j p hj
  obtain ⟨p2, e3, e4⟩ := h2 j p' e1
  exact ⟨p2, e3, e4.trans e2⟩

/-- What stays the same in every structural operation. -/
structure Same (t t' : Tree P) : Prop where
  entries : t'.entries = t.entries
  dims : t'.dims = t.dims
  last : t'.last = t.last
  lev : Lev t t'

theorem Same.trans {a b c : Tree P} (h1 : Same a b) (h2 : Same b c) : Same a c :=
  ⟨h2.entries.trans h1.entries, h2.dims.trans h1.dims, h2.last.trans h1.last, h1.lev.trans h2.lev⟩

theorem Same.setNode {t : Tree P} {i : Nat} {n n' : Node} (hn : t.nodes[i]? = some n) (hl : n'.level = n.level) : Same t (setNode t i n') :=
  ⟨rfl, rfl, rfl, Lev.setNode hn hl⟩

theorem count_map_pair (l : List Nat) (lvl c l' : Nat) : (l.map fun x => (x, lvl)).count (c, l') = if lvl = l' then l.count c else 0 := by
  induction l with
  | nil => simp
  | cons x l ih =>
    rw [List.map_cons, List.count_cons, List.count_cons, ih]
    by_cases h : lvl = l'
    · subst h
      simp [Prod.mk.injEq]
    · simp [h]

theorem split_spec (S : Sorter) {m : Nat} (hm : m ≤ 2) {tg : Bool} {t : Tree P} {orph : List (Nat × Nat)} {i : Nat} {n : Node}
    (h : Core m tg t orph (some i)) (htop : Top t) (hn : t.nodes[i]? = some n) :
    ∃ t' n' nn, split S t i = .ok (t', t.nodes.length) ∧ Same t t' ∧ t'.root = t.root ∧ Top t' ∧ rootC t' = rootC t ∧
      Core m tg t' ((t.nodes.length, n.level + 1) :: orph) none ∧
      t'.nodes[i]? = some n' ∧ n'.level = n.level ∧ 2 ≤ n'.ch.length ∧
      t'.nodes[t.nodes.length]? = some nn ∧ nn.level = n.level ∧ Le t.dims nn.box n.box ∧
      (∀ (j : Nat) (p : Node), j ≠ i → t.nodes[j]? = some p → t'.nodes[j]? = some p) := by
  have hlen := (h.size i n hn).2.1 rfl
  obtain ⟨bs, hbs, _, _, _⟩ := boxesOf_ok (h.kids_items hn)
  obtain ⟨c1, c2, c3⟩ := chooseSplit_spec S t.dims (n.ch.zip bs) n.ch
  generalize hr : chooseSplit S t.dims (n.ch.zip bs) n.ch = r at c1 c2 c3
  have hl1 : r.1.length = MAXN + 1 := by rw [c1.length_eq]; exact hlen
  have hlt : (r.1.take r.2).length = r.2 := by rw [List.length_take, hl1]; show min r.2 11 = _; omega
  have hld : (r.1.drop r.2).length = 11 - r.2 := by rw [List.length_drop, hl1]
  have hsum : ∀ c, (r.1.take r.2).count c + (r.1.drop r.2).count c = n.ch.count c := fun c => by
    rw [← List.count_append, List.take_append_drop, c1.count_eq]
  have hilt := lt_of_get hn
  -- the old node keeps the first children
  have s1 : Core m tg (setNode t i { n with ch := r.1.take r.2 }) ((r.1.drop r.2).map (fun x => (x, n.level)) ++ orph) none := by
    refine h.setKids hn ?_ ?_ ?_ ?_
    · intro lvl c
      rw [List.count_append, count_map_pair, contrib, contrib]
      have := hsum c
      by_cases hl : n.level = lvl
      · rw [if_pos hl, if_pos hl, if_pos hl]; show (r.1.take r.2).count c + _ = _; omega
      · rw [if_neg hl, if_neg hl, if_neg hl]; omega
    · intro c hc b hb
      exact h.le i n c b hn (c1.subset (List.mem_of_mem_take hc)) hb
    · intro j hj
      constructor
      · intro he; exact absurd (by simpa using he.symm) hj
      · intro he; simp at he
    · rw [hlt]
      exact ⟨fun _ => by show r.2 ≤ 10; omega, fun he => by simp at he, by omega, fun _ => by omega, fun _ _ => c2⟩
  have t1top := htop.setNode (n' := { n with ch := r.1.take r.2 }) hn rfl
  have hlenset : (setNode t i { n with ch := r.1.take r.2 }).nodes.length = t.nodes.length := by
    show (t.nodes.set i _).length = _; simp
  -- the new node
  obtain ⟨B, b1, b2, b3, b4⟩ := s1.build (lvl := n.level) (cs := r.1.drop r.2) (orph' := orph) (by
      intro l c
      rw [List.count_append, count_map_pair])
    (by simp) t1top.root_ne (by rw [hld]; exact ⟨by show 11 - r.2 ≤ 10; omega, by omega, by omega⟩)
  rw [hlenset] at b1 b2 b3
  have t2top : Top (addNode (setNode t i { n with ch := r.1.take r.2 }) ⟨B, n.level, r.1.drop r.2⟩) :=
    t1top.addNode (n' := { n with ch := r.1.take r.2 }) (List.mem_of_getElem? (i := i) (by rw [setNode_get hilt, if_pos rfl])) (Nat.le_refl _)
  -- recalculating the old node
  have hn2 : (addNode (setNode t i { n with ch := r.1.take r.2 }) ⟨B, n.level, r.1.drop r.2⟩).nodes[i]?
      = some { n with ch := r.1.take r.2 } := addNode_get_old (by rw [setNode_get hilt, if_pos rfl])
  obtain ⟨B', q1, q2, q3⟩ := b3.recalc hn2
  refine ⟨setNode (addNode (setNode t i { n with ch := r.1.take r.2 }) ⟨B, n.level, r.1.drop r.2⟩) i
    { n with ch := r.1.take r.2, box := B' }, { n with ch := r.1.take r.2, box := B' }, ⟨B, n.level, r.1.drop r.2⟩,
    ?_, ⟨rfl, rfl, rfl, ((Lev.setNode hn (n' := { n with ch := r.1.take r.2 }) rfl).trans (Lev.addNode _ _)).trans (Lev.setNode hn2 rfl)⟩, rfl, ?_, ?_, q2, ?_, rfl, ?_, ?_, rfl, ?_, ?_⟩
  · unfold split
    rw [getNode_ok hn, Res.ok_bind, decide_eq_true hlen, Res.assert_true, Res.ok_bind, hbs, Res.ok_bind]
    dsimp only
    rw [hr, b1, Res.ok_bind]
    dsimp only
    rw [b2, Res.ok_bind, q1, Res.ok_bind]
  · exact t2top.setNode hn2 rfl
  · rw [rootC_setNode t2top (n' := { n with ch := r.1.take r.2, box := B' }) hn2 rfl, rootC_addNode t1top,
      rootC_setNode htop (n' := { n with ch := r.1.take r.2 }) hn rfl]
  · rw [setNode_get (lt_of_get hn2), if_pos rfl]
  · show 2 ≤ (r.1.take r.2).length
    rw [hlt]; exact c2
  · rw [setNode_get (lt_of_get hn2), if_neg (by omega)]
    have := addNode_get_new (t := setNode t i { n with ch := r.1.take r.2 }) (n := ⟨B, n.level, r.1.drop r.2⟩)
    rwa [hlenset] at this
  · refine b4 n.box fun c hc b hb => ?_
    refine h.le i n c b hn (c1.subset (List.mem_of_mem_drop hc)) ?_
    rw [← hb]
    symm
    by_cases hci : n.level = 0 ∨ c ≠ i
    · exact getBox_setNode_ne hci
    · have h0 : n.level ≠ 0 := fun h0 => hci (Or.inl h0)
      have hc' : c = i := Decidable.byContradiction fun hne => hci (Or.inr hne)
      subst hc'
      obtain ⟨k, hk⟩ : ∃ k, n.level = k + 1 := ⟨n.level - 1, by omega⟩
      rw [hk, getBox_setNode_eq hilt, getBox_succ hn]
  · intro j p hj hp
    rw [setNode_get (lt_of_get hn2), if_neg (fun he => hj he.symm)]
    exact addNode_get_old (by rw [setNode_get hilt, if_neg (fun he => hj he.symm)]; exact hp)

/-! ### Overflow treatment -/

/-- The outcome of an operation below or at a node of level `lvl`. -/
def Post (m : Nat) (tg : Bool) (t t' : Tree P) (orph : List (Nat × Nat)) (start lvl : Nat) (Bs : List Box) : Option Nat → Prop
  | none => Inv m tg t' orph none
  | some new => Inv m tg t' ((new, lvl + 1) :: orph) none ∧ t'.root = t.root ∧ t.root ≠ some start ∧
      (∀ (j : Nat) (p : Node), t.nodes[j]? = some p → lvl < p.level → t'.nodes[j]? = some p) ∧
      ∃ nn, t'.nodes[new]? = some nn ∧ ∀ H, (∀ b ∈ Bs, Le t.dims b H) → Le t.dims nn.box H

def OvfSpec (m : Nat) (tg : Bool) (ovf : Tree P → Nat → Res (Tree P × Option Nat)) : Prop :=
  ∀ (t : Tree P) (orph : List (Nat × Nat)) (i : Nat) (n : Node), Inv m tg t orph (some i) → t.nodes[i]? = some n →
    ∃ t' o, ovf t i = .ok (t', o) ∧ Same t t' ∧ Post m tg t t' orph i n.level [n.box] o

theorem splitTreat_spec (S : Sorter) {m : Nat} (hm : m ≤ 2) {tg : Bool} : OvfSpec (P := P) m tg (splitTreat S) := by
  intro t orph i n h hn
  obtain ⟨t', n', nn, e1, e2, e3, e4, e5, e6, e7, e8, e9, e10, e11, e12, e13⟩ := split_spec S hm h.core h.top hn
  by_cases hroot : t.root = some i
  · -- the root was split
    have hrc : rootC t = [(i, n.level + 1)] := rootC_of hroot hn
    rw [hrc] at e6
    obtain ⟨B, b1, b2, b3, b4⟩ := e6.build (lvl := n.level + 1) (cs := [i, t.nodes.length]) (orph' := orph) (by
        intro l c
        simp only [List.count_cons, List.count_nil, List.singleton_append]
        by_cases hl : n.level + 1 = l
        · subst hl; simp [Prod.mk.injEq]; omega
        · simp [hl])
      (by simp) e4.root_ne ⟨by show 2 ≤ 10; omega, by simp, by simpa using hm⟩
    have hnew : (addNode t' ⟨B, n.level + 1, [i, t.nodes.length]⟩).nodes[t'.nodes.length]? = some ⟨B, n.level + 1, [i, t.nodes.length]⟩ :=
      addNode_get_new
    have hcore := b3.setRoot hnew (fun _ => by simp) (by
      intro j p hj hp
      have hj' : t'.root = some j := hj
      rw [e3, hroot] at hj'
      have : i = j := by simpa using hj'
      subst this
      rw [addNode_get_old e7] at hp
      cases hp; omega)
    refine ⟨{ addNode t' ⟨B, n.level + 1, [i, t.nodes.length]⟩ with root := some t'.nodes.length }, none, ?_,
      e2.trans ⟨rfl, rfl, rfl, fun _ p hj => ⟨p, addNode_get_old hj, rfl⟩⟩, ?_⟩
    · unfold splitTreat
      rw [e1, Res.ok_bind, if_pos hroot]
      dsimp only
      rw [getNode_ok e7, Res.ok_bind, e8, b1, Res.ok_bind]
      dsimp only
      rw [b2, Res.ok_bind]
    · refine ⟨?_, ?_⟩
      · have hrc' : rootC { addNode t' ⟨B, n.level + 1, [i, t.nodes.length]⟩ with root := some t'.nodes.length } =
            [(t'.nodes.length, n.level + 1 + 1)] :=
          rootC_of (t := { addNode t' ⟨B, n.level + 1, [i, t.nodes.length]⟩ with root := some t'.nodes.length }) rfl hnew
        show Core m tg _ (rootC { addNode t' ⟨B, n.level + 1, [i, t.nodes.length]⟩ with root := some t'.nodes.length } ++ orph) none
        rw [hrc']
        exact hcore
      · refine ⟨_, _, rfl, hnew, fun x hx => ?_⟩
        rcases List.mem_append.1 hx with hx | hx
        · obtain ⟨r, nr, f1, f2, f3⟩ := e4
          have hx' := f3 x hx
          rw [e3, hroot] at f1
          have : i = r := by simpa using f1
          subst this
          rw [e7] at f2; cases f2
          show x.level ≤ n.level + 1
          omega
        · rw [List.mem_singleton.1 hx]; exact Nat.le_refl _
  · refine ⟨t', some t.nodes.length, ?_, e2, ⟨?_, e4⟩, e3, hroot, ?_, nn, e10, ?_⟩
    · unfold splitTreat
      rw [e1, Res.ok_bind, if_neg hroot]
    · rw [e5]
      exact e6.perm (List.perm_middle.symm)
    · intro j p hp hl
      exact e13 j p (by rintro rfl; rw [hn] at hp; cases hp; omega) hp
    · intro H hH
      exact e12.trans (hH n.box (by simp))

theorem overflowF_spec (S : Sorter) {m : Nat} (hm : m ≤ 2) {tg : Bool} : OvfSpec (P := P) m tg (overflowF S) := by
  intro t orph i n h hn
  have hlen := (h.core.size i n hn).2.1 rfl
  unfold overflowF
  rw [getNode_ok hn, Res.ok_bind, decide_eq_true hlen, Res.assert_true, Res.ok_bind]
  exact splitTreat_spec S hm t orph i n h hn

/-! ### `insert_slot` -/

/-- Adding an orphan as a child. -/
theorem Inv.addKid {m : Nat} (hm : m ≤ 2) {tg : Bool} {t : Tree P} {orph : List (Nat × Nat)} {start slot : Nat} {n : Node}
    (h : Inv m tg t ((slot, n.level) :: orph) none) (hn : t.nodes[start]? = some n)
    (hb : ∀ b, getBox t slot n.level = .ok b → Le t.dims b n.box) :
    addChild n slot = .ok { n with ch := n.ch ++ [slot] } ∧
    Inv m tg (setNode t start { n with ch := n.ch ++ [slot] }) orph
      (if (n.ch ++ [slot]).length > MAXN then some start else none) := by
  obtain ⟨s1, _, s3, s4, s5⟩ := h.core.size start n hn
  have s1 := s1 (by simp)
  refine ⟨?_, ?_, h.top.setNode hn rfl⟩
  · unfold addChild
    rw [decide_eq_true s1, Res.assert_true, Res.ok_bind]
  · rw [rootC_setNode h.top (n' := { n with ch := n.ch ++ [slot] }) hn rfl]
    refine h.core.setKids hn ?_ ?_ ?_ ?_
    · intro lvl c
      rw [List.count_append, List.count_append, List.count_cons, contrib, contrib]
      by_cases hl : n.level = lvl
      · rw [if_pos hl, if_pos hl]
        show (n.ch ++ [slot]).count c + _ = _
        rw [List.count_append, List.count_singleton]
        subst hl
        simp [Prod.mk.injEq]
        omega
      · rw [if_neg hl, if_neg hl]
        simp [hl]
    · intro c hc b hcb
      rcases List.mem_append.1 hc with hc | hc
      · exact h.core.le start n c b hn hc hcb
      · rw [List.mem_singleton.1 hc] at hcb; exact hb b hcb
    · intro j hj
      split
      · constructor
        · intro he; simp at he
        · intro he; exact absurd (by simpa using he.symm) hj
      · rfl
    · have hl : (n.ch ++ [slot]).length = n.ch.length + 1 := by simp
      split
      · next hgt =>
        exact ⟨fun he => absurd rfl he, fun _ => by omega, by omega, fun _ => by omega, fun _ _ => by omega⟩
      · next hgt =>
        exact ⟨fun _ => by omega, fun he => by simp at he, by omega, fun hr => by have := s4 hr; omega,
          fun hr hl => by have := s5 hr hl; omega⟩

/-- The end of `insert_slot`: treat the node if it became overfull. -/
theorem finish_spec {m : Nat} (hm : m ≤ 2) {tg : Bool} {ovf : Tree P → Nat → Res (Tree P × Option Nat)} (ho : OvfSpec m tg ovf)
    {t : Tree P} {orph : List (Nat × Nat)} {start slot : Nat} {n : Node}
    (h : Inv m tg t ((slot, n.level) :: orph) none) (hn : t.nodes[start]? = some n)
    (hb : ∀ b, getBox t slot n.level = .ok b → Le t.dims b n.box) :
    ∃ t' o, ((addChild n slot).bind fun n2 => (getNode (setNode t start n2) start).bind fun n =>
        if n.ch.length > MAXN then ovf (setNode t start n2) start else .ok (setNode t start n2, none)) = .ok (t', o) ∧ Same t t' ∧
      Post m tg t t' orph start n.level [n.box] o := by
  obtain ⟨a1, a2⟩ := h.addKid hm hn hb
  have hget : (setNode t start { n with ch := n.ch ++ [slot] }).nodes[start]? = some { n with ch := n.ch ++ [slot] } := by
    rw [setNode_get (lt_of_get hn), if_pos rfl]
  rw [a1, Res.ok_bind, getNode_ok hget, Res.ok_bind]
  by_cases hgt : (n.ch ++ [slot]).length > MAXN
  · rw [if_pos hgt] at a2 ⊢
    obtain ⟨t', o, e1, e2, e3⟩ := ho _ orph start _ a2 hget
    refine ⟨t', o, e1, (Same.setNode hn (by rfl)).trans e2, ?_⟩
    cases o with
    | none => exact e3
    | some new =>
      obtain ⟨f1, f2, f3, f4, nn, f5, f6⟩ := e3
      refine ⟨f1, f2, f3, fun j p hp hl => f4 j p ?_ hl, nn, f5, f6⟩
      rw [setNode_get (lt_of_get hn), if_neg]
      · exact hp
      · rintro rfl; rw [hn] at hp; cases hp; omega
  · rw [if_neg hgt] at a2 ⊢
    exact ⟨_, none, rfl, Same.setNode hn rfl, a2⟩

theorem insertWith_spec {m : Nat} (hm : m ≤ 2) {tg : Bool} {ovf : Tree P → Nat → Res (Tree P × Option Nat)} (ho : OvfSpec m tg ovf)
    (slot lvl : Nat) (b : Box) : ∀ (fuel : Nat) (t : Tree P) (orph : List (Nat × Nat)) (start : Nat) (n : Node),
    Inv m tg t ((slot, lvl) :: orph) none → t.nodes[start]? = some n → lvl ≤ n.level → n.level < fuel + lvl →
    getBox t slot lvl = .ok b →
    (∀ (j : Nat) (p : Node), t.nodes[j]? = some p → p.level = n.level + 1 → start ∈ p.ch → Le t.dims b p.box) →
    ∃ t' o, insertWith ovf slot lvl fuel t start = .ok (t', o) ∧ Same t t' ∧ Post m tg t t' orph start n.level [n.box, b] o
  | 0, t, orph, start, n, _, _, h1, h2, _, _ => by omega
  | fuel + 1, t, orph, start, n, h, hn, hle, hfuel, hb, hpar => by
      have hmem : (slot, lvl) ∈ rootC t ++ (slot, lvl) :: orph := by simp
      have hbG : Good t.dims b := h.core.good_of_getBox hb
      have hnG : Good t.dims n.box := h.core.nodeG n (List.mem_of_getElem? hn)
      obtain ⟨x1, x2, x3, x4⟩ := extend_spec hnG hbG
      have hilt := lt_of_get hn
      -- the extended node
      have hc1 : Core m tg (setNode t start { n with box := n.box.extend b }) (rootC t ++ (slot, lvl) :: orph) none := by
        refine h.core.setBox hn x1 ?_ ?_ ?_
        · intro c hc b' hb'; exact (h.core.le start n c b' hn hc hb').trans x2
        · intro j p hj hl hc
          exact x4 p.box (h.core.le j p start n.box hj hc (by rw [hl]; exact getBox_succ hn)) (hpar j p hj hl hc)
        · intro ht H hH
          exact x4 H (h.core.tight ht H hH n (List.mem_of_getElem? hn)) (h.core.tight_getBox ht hb hH)
      have h1 : Inv m tg (setNode t start { n with box := n.box.extend b }) ((slot, lvl) :: orph) none :=
        ⟨by rw [rootC_setNode h.top (n' := { n with box := n.box.extend b }) hn rfl]; exact hc1, h.top.setNode hn rfl⟩
      have hn1 : (setNode t start { n with box := n.box.extend b }).nodes[start]? = some { n with box := n.box.extend b } := by
        rw [setNode_get hilt, if_pos rfl]
      -- the box of the thing to add did not change
      have hb1 : getBox (setNode t start { n with box := n.box.extend b }) slot lvl = .ok b := by
        rw [← hb]
        by_cases hci : lvl = 0 ∨ slot ≠ start
        · exact getBox_setNode_ne hci
        · exfalso
          have h0 : lvl ≠ 0 := fun h0 => hci (Or.inl h0)
          have hc' : slot = start := Decidable.byContradiction fun hne => hci (Or.inr hne)
          subst hc'
          have hit := h.core.item_of_orph hmem
          obtain ⟨k, hk⟩ : ∃ k, lvl = k + 1 := ⟨lvl - 1, by omega⟩
          rw [hk, isItem_succ, hn] at hit
          simp at hit
          omega
      rw [insertWith, getNode_ok hn, Res.ok_bind, decide_eq_true hle, Res.assert_true, Res.ok_bind, hb, Res.ok_bind]
      dsimp only
      by_cases hlv : n.level = lvl
      · -- the right level
        rw [if_pos hlv, getNode_ok hn1, Res.ok_bind]
        subst hlv
        have hpre : Inv m tg (setNode t start { n with box := n.box.extend b })
            ((slot, ({ n with box := n.box.extend b } : Node).level) :: orph) none := by
          exact h1
        obtain ⟨t', o, e1, e2, e3⟩ := finish_spec hm ho hpre hn1 (by
          intro b' hb'
          have hb'' : getBox (setNode t start { n with box := n.box.extend b }) slot n.level = .ok b' := hb'
          rw [hb1] at hb''; cases hb''; exact x3)
        refine ⟨t', o, e1, (Same.setNode hn (by rfl)).trans e2, ?_⟩
        cases o with
        | none => exact e3
        | some new =>
          obtain ⟨f1, f2, f3, f4, nn, f5, f6⟩ := e3
          refine ⟨f1, f2, f3, fun j p hp hl => f4 j p ?_ hl, nn, f5, fun H hH => f6 H ?_⟩
          · rw [setNode_get hilt, if_neg]
            · exact hp
            · rintro rfl; rw [hn] at hp; cases hp; omega
          · intro y hy
            rw [List.mem_singleton.1 hy]
            exact x4 H (hH _ (by simp)) (hH _ (by simp))
      · -- descend
        rw [if_neg hlv]
        have hpos : 0 < n.level := by omega
        obtain ⟨c, hc, hcs⟩ := h1.core.chooseSubtree_ok hn1 (by exact hpos) (h1.core.item_of_orph (c := slot) (lvl := lvl) (by simp))
        rw [hcs, Res.ok_bind]
        have hcit := h1.core.item_of_child hn1 hc
        obtain ⟨k, hk⟩ : ∃ k, n.level = k + 1 := ⟨n.level - 1, by omega⟩
        have hcit' : isItem (setNode t start { n with box := n.box.extend b }) c (k + 1) = true := by rw [← hk]; exact hcit
        obtain ⟨nc, hnc, hncl⟩ := isItem_succ.1 hcit'
        obtain ⟨t2, o2, e1, e2, e3⟩ := insertWith_spec hm ho slot lvl b fuel _ orph c nc h1 hnc (by omega) (by omega) hb1 (by
          intro j p hj hl hcp
          have : j = start := h1.core.parent_unique hj hn1 (by show p.level = n.level; omega) hcp hc
          subst this
          rw [hn1] at hj; cases hj
          exact x3)
        rw [e1, Res.ok_bind]
        cases o2 with
        | none => exact ⟨t2, none, rfl, (Same.setNode hn (by rfl)).trans e2, e3⟩
        | some new =>
          dsimp only
          obtain ⟨f1, f2, f3, f4, nn, f5, f6⟩ := e3
          have hn2 : t2.nodes[start]? = some { n with box := n.box.extend b } := f4 start _ hn1 (by show nc.level < n.level; omega)
          rw [getNode_ok hn2, Res.ok_bind]
          have hpre : Inv m tg t2 ((new, ({ n with box := n.box.extend b } : Node).level) :: orph) none := by
            show Inv m tg t2 ((new, n.level) :: orph) none
            rw [hk, ← hncl]; exact f1
          obtain ⟨t', o, g1, g2, g3⟩ := finish_spec hm ho hpre hn2 (by
            intro b' hb'
            have hb'' : getBox t2 new n.level = .ok b' := hb'
            rw [hk, getBox_succ f5] at hb''; cases hb''
            have hd : t2.dims = t.dims := e2.dims
            rw [hd]
            refine f6 _ fun y hy => ?_
            rcases List.mem_cons.1 hy with rfl | hy
            · have hgb := getBox_succ (k := k) hnc
              rw [← hk] at hgb
              exact h1.core.le start _ c nc.box hn1 hc hgb
            · rw [List.mem_singleton.1 hy]; exact x3)
          refine ⟨t', o, g1, ((Same.setNode hn (by rfl)).trans e2).trans g2, ?_⟩
          cases o with
          | none => exact g3
          | some new2 =>
            obtain ⟨k1, k2, k3, k4, nn2, k5, k6⟩ := g3
            refine ⟨k1, k2.trans f2, ?_, fun j p hp hl => k4 j p ?_ hl, nn2, k5, fun H hH => ?_⟩
            · rw [f2] at k3; exact k3
            · refine f4 j p ?_ (by omega)
              rw [setNode_get hilt, if_neg]
              · exact hp
              · rintro rfl; rw [hn] at hp; cases hp; omega
            · have hd : t2.dims = t.dims := e2.dims
              rw [hd] at k6
              refine k6 H fun y hy => ?_
              rw [List.mem_singleton.1 hy]
              exact x4 H (hH _ (by simp)) (hH _ (by simp))

/-! ### From the root -/

theorem height_eq {t : Tree P} {r : Nat} {n : Node} (h1 : t.root = some r) (h2 : t.nodes[r]? = some n) : height t = n.level + 1 := by
  unfold height; rw [h1]; dsimp only; rw [h2]

/-- Inserting an orphan from the root never asks the caller to do anything. -/
theorem insert_root_spec {m : Nat} (hm : m ≤ 2) {tg : Bool} {ovf : Tree P → Nat → Res (Tree P × Option Nat)} (ho : OvfSpec m tg ovf)
    {slot lvl : Nat} {t : Tree P} {orph : List (Nat × Nat)} {r : Nat} {n : Node} (h : Inv m tg t ((slot, lvl) :: orph) none)
    (hr : t.root = some r) (hn : t.nodes[r]? = some n) (hl : lvl ≤ n.level) :
    ∃ t', insertWith ovf slot lvl (height t) t r = .ok (t', none) ∧ Same t t' ∧ Inv m tg t' orph none := by
  obtain ⟨b, hb⟩ := getBox_of_item (h.core.item_of_orph (c := slot) (lvl := lvl) (by simp))
  obtain ⟨t', o, e1, e2, e3⟩ := insertWith_spec hm ho slot lvl b (height t) t orph r n h hn hl (by rw [height_eq hr hn]; omega) hb (by
    intro j p hj hlp hc
    exact absurd hc (h.core.no_parent (c := r) (lvl := n.level + 1) (by rw [rootC_of hr hn]; simp) hj hlp))
  cases o with
  | none => exact ⟨t', e1, e2, e3⟩
  | some new => exact absurd hr e3.2.2.1

/-- The root never gets lower. -/
theorem Inv.root_level {m : Nat} {tg : Bool} {t : Tree P} {orph : List (Nat × Nat)} {ov : Option Nat} (h : Inv m tg t orph ov) {c lvl : Nat}
    (hc : (c, lvl + 1) ∈ orph) : ∃ r n, t.root = some r ∧ t.nodes[r]? = some n ∧ lvl ≤ n.level := by
  obtain ⟨r, n, h1, h2, h3⟩ := h.top
  have hit := h.core.item_of_orph (c := c) (lvl := lvl + 1) (by simp [hc])
  obtain ⟨nc, hnc, hl⟩ := isItem_succ.1 hit
  exact ⟨r, n, h1, h2, by have := h3 nc (List.mem_of_getElem? hnc); omega⟩

end Verif.Tree
