import Verif.Tree.InsertProof
/-
Re-insertion and `InsertElement` keep the invariant.
-/
namespace Verif.Tree
open Verif Verif.ND

variable {P : Type}

theorem reinsertLoop_spec (S : Sorter) {m : Nat} (hm : m ≤ 2) {tg : Bool} (lvl : Nat) : ∀ (cs : List Nat) (t : Tree P) (orph : List (Nat × Nat)),
    Inv m tg t (cs.map (fun x => (x, lvl)) ++ orph) none → (∃ (i : Nat) (n : Node), t.nodes[i]? = some n ∧ n.level = lvl) →
    ∃ t', reinsertLoop S lvl cs t = .ok t' ∧ Same t t' ∧ Inv m tg t' orph none
  | [], t, orph, h, _ => ⟨t, rfl, ⟨rfl, rfl, rfl, fun _ p h => ⟨p, h, rfl⟩⟩, h⟩
  | c :: cs, t, orph, h, ⟨i, n, hi, hl⟩ => by
      obtain ⟨r, nr, h1, h2, h3⟩ := h.top
      have hle : lvl ≤ nr.level := by have := h3 n (List.mem_of_getElem? hi); omega
      obtain ⟨t1, e1, e2, e3⟩ := insert_root_spec hm (overflowF_spec S hm) h h1 h2 hle
      obtain ⟨n', hi', hl'⟩ := e2.lev i n hi
      obtain ⟨t2, f1, f2, f3⟩ := reinsertLoop_spec S hm lvl cs t1 orph e3 ⟨i, n', hi', by omega⟩
      refine ⟨t2, ?_, e2.trans f2, f3⟩
      rw [reinsertLoop, h1]
      dsimp only
      rw [insertF, e1, Res.ok_bind]
      exact f1

theorem reinsert_spec (S : Sorter) {m : Nat} (hm : m ≤ 2) {tg : Bool} {t : Tree P} {orph : List (Nat × Nat)} {i : Nat} {n : Node}
    (h : Inv m tg t orph (some i)) (hn : t.nodes[i]? = some n) :
    ∃ t', reinsert S t i = .ok t' ∧ Same t t' ∧ Inv m tg t' orph none := by
  have hlen := (h.core.size i n hn).2.1 rfl
  obtain ⟨bs, hbs, _, _, _⟩ := boxesOf_ok (h.core.kids_items hn)
  unfold reinsert
  rw [getNode_ok hn, Res.ok_bind, decide_eq_true hlen, Res.assert_true, Res.ok_bind, hbs, Res.ok_bind]
  dsimp only
  have hp := S.perm (fun a b => decide ((boxAt (n.ch.zip bs) a).centerDist n.box.center < (boxAt (n.ch.zip bs) b).centerDist n.box.center)) n.ch
  generalize S.run (fun a b => decide ((boxAt (n.ch.zip bs) a).centerDist n.box.center < (boxAt (n.ch.zip bs) b).centerDist n.box.center))
    n.ch = l at hp ⊢
  have hl1 : l.length = 11 := by rw [hp.length_eq]; exact hlen
  have hlt : (l.take (MAXN + 1 - REINS)).length = 8 := by rw [List.length_take, hl1]; rfl
  have hsum : ∀ c, (l.take (MAXN + 1 - REINS)).count c + (l.drop (MAXN + 1 - REINS)).count c = n.ch.count c := fun c => by
    rw [← List.count_append, List.take_append_drop, hp.count_eq]
  have s1 : Core m tg (setNode t i { n with ch := l.take (MAXN + 1 - REINS) })
      ((l.drop (MAXN + 1 - REINS)).map (fun x => (x, n.level)) ++ (rootC t ++ orph)) none := by
    refine h.core.setKids hn ?_ ?_ ?_ ?_
    · intro lvl c
      rw [List.count_append, count_map_pair, contrib, contrib]
      have := hsum c
      by_cases hl : n.level = lvl
      · rw [if_pos hl, if_pos hl, if_pos hl]; show (l.take (MAXN + 1 - REINS)).count c + _ = _; omega
      · rw [if_neg hl, if_neg hl, if_neg hl]; omega
    · intro c hc b hb
      exact h.core.le i n c b hn (hp.subset (List.mem_of_mem_take hc)) hb
    · intro j hj
      constructor
      · intro he; exact absurd (by simpa using he.symm) hj
      · intro he; simp at he
    · rw [hlt]
      exact ⟨fun _ => by show 8 ≤ 10; omega, fun he => by simp at he, by omega, fun _ => by omega, fun _ _ => by omega⟩
  have t1top := h.top.setNode (n' := { n with ch := l.take (MAXN + 1 - REINS) }) hn rfl
  have hn1 : (setNode t i { n with ch := l.take (MAXN + 1 - REINS) }).nodes[i]? = some { n with ch := l.take (MAXN + 1 - REINS) } := by
    rw [setNode_get (lt_of_get hn), if_pos rfl]
  obtain ⟨B, q1, q2, _⟩ := s1.recalc hn1
  rw [q1, Res.ok_bind]
  have hrc := rootC_setNode t1top (n' := { n with ch := l.take (MAXN + 1 - REINS), box := B }) hn1 rfl
  rw [rootC_setNode h.top (n' := { n with ch := l.take (MAXN + 1 - REINS) }) hn rfl] at hrc
  have hinv : Inv m tg (setNode (setNode t i { n with ch := l.take (MAXN + 1 - REINS) }) i
      { n with ch := l.take (MAXN + 1 - REINS), box := B }) ((l.drop (MAXN + 1 - REINS)).map (fun x => (x, n.level)) ++ orph) none := by
    refine ⟨?_, t1top.setNode hn1 rfl⟩
    rw [hrc]
    refine q2.perm ?_
    rw [← List.append_assoc, ← List.append_assoc]
    exact List.Perm.append_right _ List.perm_append_comm
  have hn2 : (setNode (setNode t i { n with ch := l.take (MAXN + 1 - REINS) }) i
      { n with ch := l.take (MAXN + 1 - REINS), box := B }).nodes[i]? = some { n with ch := l.take (MAXN + 1 - REINS), box := B } := by
    rw [setNode_get (lt_of_get hn1), if_pos rfl]
  obtain ⟨t', e1, e2, e3⟩ := reinsertLoop_spec S hm n.level _ _ orph hinv ⟨i, _, hn2, rfl⟩
  exact ⟨t', e1, ((Same.setNode hn (by rfl)).trans (Same.setNode hn1 (by rfl))).trans e2, e3⟩

theorem overflowT_spec (S : Sorter) {m : Nat} (hm : m ≤ 2) {tg : Bool} : OvfSpec (P := P) m tg (overflowT S) := by
  intro t orph i n h hn
  have hlen := (h.core.size i n hn).2.1 rfl
  unfold overflowT
  rw [getNode_ok hn, Res.ok_bind, decide_eq_true hlen, Res.assert_true, Res.ok_bind]
  by_cases hroot : t.root = some i
  · rw [if_neg (by simpa using hroot)]
    exact splitTreat_spec S hm t orph i n h hn
  · rw [if_pos hroot]
    obtain ⟨t', e1, e2, e3⟩ := reinsert_spec S hm h hn
    exact ⟨t', none, by rw [e1, Res.ok_bind], e2, e3⟩

/-! ### A new entry -/

/-- The pool of entries grows by one. -/
def addEntry (t : Tree P) (e : Entry P) : Tree P := { t with entries := t.entries ++ [e] }

theorem isItem_addEntry {t : Tree P} {e : Entry P} (c lvl : Nat) :
    isItem (addEntry t e) c lvl = (isItem t c lvl || decide (c = t.entries.length ∧ lvl = 0)) := by
  cases lvl with
  | zero =>
    show decide (c < (t.entries ++ [e]).length) = (decide (c < t.entries.length) || _)
    rw [List.length_append, List.length_singleton, Bool.eq_iff_iff]
    simp; omega
  | succ k => 
    show isItem t c (k + 1) = _
    simp

theorem getBox_addEntry {t : Tree P} {e : Entry P} {c lvl : Nat} (h : isItem t c lvl = true) : getBox (addEntry t e) c lvl = getBox t c lvl := by
  cases lvl with
  | zero =>
    have hl : c < t.entries.length := by simpa [isItem] using h
    rw [getBox_zero (List.getElem?_eq_getElem hl)]
    refine getBox_zero ?_
    show (t.entries ++ [e])[c]? = _
    rw [List.getElem?_append_left hl, List.getElem?_eq_getElem hl]
  | succ k => rfl

theorem Core.addEntry {m : Nat} {tg : Bool} {t : Tree P} {orph : List (Nat × Nat)} {ov : Option Nat} (h : Core m tg t orph ov) {e : Entry P}
    (he : Good t.dims e.box) : Core m tg (Tree.addEntry t e) ((t.entries.length, 0) :: orph) ov where
  ent x hx := by
    rcases List.mem_append.1 hx with hx | hx
    · exact h.ent x hx
    · rw [List.mem_singleton.1 hx]; exact he
  nodeG := h.nodeG
  cnt lvl c := by
    have h1 := h.cnt lvl c
    rw [isItem_addEntry, List.count_cons]
    show occ t lvl c + _ = _
    by_cases hc : c = t.entries.length ∧ lvl = 0
    · obtain ⟨rfl, rfl⟩ := hc
      have : isItem t t.entries.length 0 = false := by simp [isItem]
      rw [this] at h1 ⊢
      simp at h1 ⊢
      omega
    · have h2 : ((t.entries.length, 0) == (c, lvl)) = false := by
        rw [← Bool.not_eq_true]; intro hx
        simp only [beq_iff_eq, Prod.mk.injEq] at hx
        exact hc ⟨hx.1.symm, hx.2.symm⟩
      rw [h2, decide_eq_false hc, Bool.or_false]
      simpa using h1
  le i n c b hn hc hb := by
    rw [getBox_addEntry (h.item_of_child hn hc)] at hb
    exact h.le i n c b hn hc hb
  size := h.size
  tight ht H hH := h.tight ht H fun x hx => hH x (List.mem_append_left _ hx)

theorem Core.empty (m : Nat) (tg : Bool) (d : Nat) (last : Option Nat) : Core (P := P) m tg ⟨d, [], [], none, last⟩ [] none where
  ent := by simp
  nodeG := by simp
  cnt lvl c := by
    have : isItem (⟨d, [], [], none, last⟩ : Tree P) c lvl = false := by
      cases lvl with
      | zero => simp [isItem]
      | succ k => rw [← Bool.not_eq_true, isItem_succ]; simp
    rw [this]; rfl
  le := by simp
  size := by simp
  tight := by simp

/-- A whole tree between operations. -/
structure WF (m : Nat) (tg : Bool) (t : Tree P) : Prop where
  shape : (t.root = none ∧ t.nodes = [] ∧ t.entries = []) ∨ Inv m tg t [] none
  last : ∀ l, t.last = some l → l < t.entries.length

theorem WF.empty (m : Nat) (tg : Bool) (d : Nat) : WF m tg (Tree.empty d : Tree P) :=
  ⟨Or.inl ⟨rfl, rfl, rfl⟩, fun _ h => by cases h⟩

theorem Good.mk' {d : Nat} {lo hi : List Nat} (h : IsBox d lo hi) : Good d (Box.mk' lo hi) := ⟨rfl, h⟩

/-- `InsertElement` succeeds and appends the entry. -/
theorem insertElement_spec (S : Sorter) {m : Nat} (hm : m ≤ 2) {tg : Bool} {t : Tree P} (h : WF m tg t) {lo hi : List Nat} (hb : IsBox t.dims lo hi)
    (x : P) : ∃ t', insertElement S t x lo hi = .ok t' ∧ WF m tg t' ∧ t'.dims = t.dims ∧ t'.entries = t.entries ++ [⟨Box.mk' lo hi, x⟩] := by
  obtain ⟨dims, nodes, entries, root, last⟩ := t
  rcases h.shape with ⟨h1, h2, h3⟩ | hinv
  · -- the first entry
    dsimp only at h1 h2 h3 hb
    subst h1 h2 h3
    have hG := Good.mk' hb
    have hlast : last = none := by
      cases last with
      | none => rfl
      | some l => exact absurd (h.last l rfl) (by simp)
    subst hlast
    have c0 := (Core.empty (P := P) 1 tg dims none).addEntry (e := ⟨Box.mk' lo hi, x⟩) hG
    obtain ⟨B, b1, b2, b3, _⟩ := c0.build (lvl := 0) (cs := [0]) (orph' := []) (by
        intro l c
        simp only [List.count_cons, List.count_nil, List.length_nil]
        by_cases hl : 0 = l
        · subst hl; simp [Prod.mk.injEq]
        · simp [hl]) (by simp) (by simp [Tree.addEntry]) ⟨by decide, by decide, by decide⟩
    have b4 := b3.setRoot (r := 0) (nr := ⟨B, 0, [0]⟩) rfl (fun h => absurd h (Nat.lt_irrefl 0)) (by
      intro i n hi; exact absurd hi (by simp [Tree.addNode, Tree.addEntry]))
    refine ⟨{ Tree.addNode (Tree.addEntry ⟨dims, [], [], none, none⟩ ⟨Box.mk' lo hi, x⟩) ⟨B, 0, [0]⟩ with root := some 0 }, ?_, ⟨Or.inr ⟨?_, ?_⟩, ?_⟩, rfl, rfl⟩
    · unfold insertElement buildEntry
      dsimp only
      have e1 : buildNode (P := P) ⟨dims, [], [⟨Box.mk' lo hi, x⟩], none, none⟩ 0 [0] =
        .ok (⟨dims, [⟨Box.reset dims, 0, [0]⟩], [⟨Box.mk' lo hi, x⟩], none, none⟩, 0) := b1
      show (buildNode (P := P) ⟨dims, [], [⟨Box.mk' lo hi, x⟩], none, none⟩ 0 [0]).bind _ = _
      rw [e1, Res.ok_bind]
      have e2 : Tree.recalc (P := P) ⟨dims, [⟨Box.reset dims, 0, [0]⟩], [⟨Box.mk' lo hi, x⟩], none, none⟩ 0 =
        .ok ⟨dims, [⟨B, 0, [0]⟩], [⟨Box.mk' lo hi, x⟩], none, none⟩ := b2
      have e3 : ∀ ro, Tree.recalc (P := P) ⟨dims, [⟨Box.reset dims, 0, [0]⟩], [⟨Box.mk' lo hi, x⟩], ro, none⟩ 0 =
          .ok ⟨dims, [⟨(Box.reset dims).extend (Box.mk' lo hi), 0, [0]⟩], [⟨Box.mk' lo hi, x⟩], ro, none⟩ := fun ro => rfl
      rw [e3 none] at e2
      have hB : (Box.reset dims).extend (Box.mk' lo hi) = B := by
        have := Res.ok.inj e2
        have := congrArg Tree.nodes this
        simpa using this
      show Tree.recalc (P := P) ⟨dims, [⟨Box.reset dims, 0, [0]⟩], [⟨Box.mk' lo hi, x⟩], some 0, none⟩ 0 = _
      rw [e3, hB]
      rfl
    · -- Core with m
      refine ⟨b4.ent, b4.nodeG, b4.cnt, b4.le, fun i n hn => ?_, b4.tight⟩
      obtain ⟨s1, s2, s3, s4, s5⟩ := b4.size i n hn
      refine ⟨s1, s2, s3, fun hr => ?_, s5⟩
      exfalso
      have : i = 0 := by
        have := lt_of_get hn
        simp [Tree.addNode, Tree.addEntry] at this
        exact this
      subst this
      exact hr rfl
    · refine ⟨0, ⟨B, 0, [0]⟩, rfl, rfl, ?_⟩
      intro n' hn'
      have : n' = ⟨B, 0, [0]⟩ := by simpa [Tree.addNode, Tree.addEntry] using hn'
      subst this; exact Nat.le_refl _
    · intro l hl; exact absurd hl (by simp [Tree.addNode, Tree.addEntry])
  · obtain ⟨r, nr, t1, t2, t3⟩ := hinv.top
    have hG : Good dims (Box.mk' lo hi) := Good.mk' hb
    have hrc : rootC (Tree.addEntry ⟨dims, nodes, entries, root, last⟩ ⟨Box.mk' lo hi, x⟩) = rootC ⟨dims, nodes, entries, root, last⟩ := rfl
    have hinv1 : Inv m tg (Tree.addEntry ⟨dims, nodes, entries, root, last⟩ ⟨Box.mk' lo hi, x⟩) [(entries.length, 0)] none := by
      refine ⟨?_, ⟨r, nr, t1, t2, t3⟩⟩
      rw [hrc]
      refine (hinv.core.addEntry (e := ⟨Box.mk' lo hi, x⟩) hG).perm ?_
      rw [List.append_nil]
      exact (List.perm_append_singleton _ _).symm
    obtain ⟨t', e1, e2, e3⟩ := insert_root_spec hm (overflowT_spec S hm) hinv1 (r := r) (n := nr) t1 t2 (Nat.zero_le _)
    refine ⟨t', ?_, ⟨Or.inr e3, ?_⟩, e2.dims, e2.entries⟩
    · unfold insertElement buildEntry
      have t1' : root = some r := t1
      subst t1'
      dsimp only
      show (insertWith (overflowT S) entries.length 0 (height (Tree.addEntry ⟨dims, nodes, entries, some r, last⟩ ⟨Box.mk' lo hi, x⟩))
        (Tree.addEntry ⟨dims, nodes, entries, some r, last⟩ ⟨Box.mk' lo hi, x⟩) r).bind _ = _
      rw [e1, Res.ok_bind]
    · intro l hl
      rw [e2.last] at hl
      have := h.last l hl
      rw [e2.entries]
      show l < (entries ++ [_]).length
      have h' : l < entries.length := this
      simp; omega

end Verif.Tree
