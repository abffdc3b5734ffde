import Verif.Tree.Query
/-
`UpdateBoundingBox` keeps the invariant.
-/
namespace Verif.Tree
open Verif Verif.ND

variable {P : Type}

/-- The invariant except that the box of node `x` may be too small. -/
structure CoreX (m : Nat) (tg : Bool) (t : Tree P) (orph : List (Nat × Nat)) (x : Nat) : Prop where
  ent : ∀ e ∈ t.entries, Good t.dims e.box
  nodeG : ∀ n ∈ t.nodes, Good t.dims n.box
  cnt : ∀ lvl c, occ t lvl c + orph.count (c, lvl) = if isItem t c lvl then 1 else 0
  le : ∀ (i : Nat) (n : Node) (c : Nat) (b : Box), i ≠ x → t.nodes[i]? = some n → c ∈ n.ch → getBox t c n.level = .ok b → Le t.dims b n.box
  size : ∀ (i : Nat) (n : Node), t.nodes[i]? = some n → (none ≠ some i → n.ch.length ≤ MAXN) ∧ (none = some i → n.ch.length = MAXN + 1) ∧
    1 ≤ n.ch.length ∧ (t.root ≠ some i → m ≤ n.ch.length) ∧ (t.root = some i → 0 < n.level → 2 ≤ n.ch.length)
  tight : tg = true → ∀ H, (∀ e ∈ t.entries, Le t.dims e.box H) → ∀ n ∈ t.nodes, Le t.dims n.box H

/-- Only boxes of nodes changed. -/
def SameKids (t t' : Tree P) : Prop :=
  t'.dims = t.dims ∧ t'.root = t.root ∧ t'.last = t.last ∧ t'.nodes.length = t.nodes.length ∧
  ∀ (j : Nat) (p : Node), t.nodes[j]? = some p → ∃ B, t'.nodes[j]? = some { p with box := B }

section
variable {m : Nat} {tg : Bool} {t : Tree P} {orph : List (Nat × Nat)}

/-- Replacing the box of an entry. -/
theorem Core.setEntry (h : Core m tg t orph none) {i c : Nat} {n : Node} {e : Entry P} (hn : t.nodes[i]? = some n) (hl : n.level = 0)
    (hc : c ∈ n.ch) (he : t.entries[c]? = some e) {B : Box} (hB : Good t.dims B) (hg : tg = true → Le t.dims e.box B) :
    CoreX m tg { t with entries := t.entries.set c { e with box := B } } orph i := by
  have hlt := lt_of_get he
  have hitem : ∀ d lvl, isItem { t with entries := t.entries.set c { e with box := B } } d lvl = isItem t d lvl := by
    intro d lvl
    cases lvl with
    | zero => simp [isItem]
    | succ k => rfl
  refine ⟨?_, h.nodeG, ?_, ?_, h.size, ?_⟩
  · intro x hx
    rcases List.mem_or_eq_of_mem_set hx with hx | rfl
    · exact h.ent x hx
    · exact hB
  · intro lvl d
    rw [hitem]; exact h.cnt lvl d
  · intro j p d b hj hp hd hb
    refine h.le j p d b hp hd ?_
    rw [← hb]
    cases hpl : p.level with
    | zero =>
      have hdc : c ≠ d := by
        rintro rfl
        exact hj (h.parent_unique hp hn (by rw [hpl, hl]) hd hc)
      unfold getBox getEntry
      rw [if_pos rfl, if_pos rfl]
      show _ = (match (t.entries.set c { e with box := B })[d]? with | some n => Res.ok n | none => Res.ub).bind _
      rw [List.getElem?_set_ne hdc]
      rfl
    | succ k => rfl
  · intro ht H hH n' hn'
    refine h.tight ht H (fun x hx => ?_) n' hn'
    obtain ⟨d, hd⟩ := List.getElem?_of_mem hx
    by_cases hdc : c = d
    · subst hdc
      rw [he] at hd; cases hd
      refine (hg ht).trans (hH { e with box := B } ?_)
      exact List.mem_of_getElem? (i := c) (by rw [List.getElem?_set_self hlt])
    · exact hH x (List.mem_of_getElem? (i := d) (by rw [List.getElem?_set_ne hdc]; exact hd))

theorem CoreX.item_of_child {x : Nat} (h : CoreX m tg t orph x) {i : Nat} {n : Node} {c : Nat} (hn : t.nodes[i]? = some n) (hc : c ∈ n.ch) :
    isItem t c n.level = true := by
  have h1 := h.cnt n.level c
  have h2 := occ_pos hn hc
  cases hi : isItem t c n.level with
  | true => rfl
  | false => rw [hi] at h1; simp at h1; omega

theorem CoreX.good_of_getBox {x : Nat} (h : CoreX m tg t orph x) {c lvl : Nat} {b : Box} (hb : getBox t c lvl = .ok b) : Good t.dims b := by
  unfold getBox at hb
  split at hb
  · unfold getEntry at hb
    split at hb
    · next e he => cases hb; exact h.ent e (List.mem_of_getElem? he)
    · cases hb
  · unfold getNode at hb
    split at hb
    · next e he => cases hb; exact h.nodeG e (List.mem_of_getElem? he)
    · cases hb

theorem CoreX.tight_getBox {x : Nat} (h : CoreX m tg t orph x) (ht : tg = true) {c lvl : Nat} {b : Box} (hb : getBox t c lvl = .ok b) {H : Box}
    (hH : ∀ e ∈ t.entries, Le t.dims e.box H) : Le t.dims b H := by
  unfold getBox at hb
  split at hb
  · unfold getEntry at hb
    split at hb
    · next e he => cases hb; exact hH e (List.mem_of_getElem? he)
    · cases hb
  · unfold getNode at hb
    split at hb
    · next e he => cases hb; exact h.tight ht H hH e (List.mem_of_getElem? he)
    · cases hb

theorem CoreX.parent_unique {x : Nat} (h : CoreX m tg t orph x) {c : Nat} {i j : Nat} {n n' : Node} (hn : t.nodes[i]? = some n)
    (hn' : t.nodes[j]? = some n') (hl : n.level = n'.level) (hc : c ∈ n.ch) (hc' : c ∈ n'.ch) : i = j := by
  refine Decidable.byContradiction fun hne => ?_
  have h1 := h.cnt n.level c
  have h2 := two_le_sum (contrib n.level c) t.nodes i j n n' hn hn' hne
  have h3 := contrib_pos hc
  have h4 := contrib_pos hc'
  rw [← hl] at h4
  have h5 : occ t n.level c = (t.nodes.map (contrib n.level c)).sum := rfl
  split at h1 <;> omega

/-- Recalculating the box of `x` moves the exception to its parent `y` (any `y` if there is no parent). -/
theorem CoreX.recalc {x y : Nat} {n : Node} (h : CoreX m tg t orph x) (hn : t.nodes[x]? = some n)
    (hy : ∀ (j : Nat) (p : Node), t.nodes[j]? = some p → p.level = n.level + 1 → x ∈ p.ch → j = y) :
    ∃ B, Tree.recalc t x = .ok (setNode t x { n with box := B }) ∧ CoreX m tg (setNode t x { n with box := B }) orph y ∧
      ((∀ (j : Nat) (p : Node), t.nodes[j]? = some p → p.level = n.level + 1 → x ∉ p.ch) → Core m tg (setNode t x { n with box := B }) orph none) := by
  obtain ⟨bs, hbs, hlen, hb1, hb2⟩ := boxesOf_ok (fun c hc => h.item_of_child hn hc)
  have hne : bs ≠ [] := by
    rintro rfl
    have := (h.size x n hn).2.2.1
    simp only [List.length_nil] at hlen; omega
  obtain ⟨g1, g2, g3⟩ := hull_spec (d := t.dims) hne (fun b hb => by
    obtain ⟨c, hc, hcb⟩ := hb1 b hb; exact h.good_of_getBox hcb)
  generalize hB : bs.foldl Box.extend (Box.reset t.dims) = B at g1 g2 g3
  have hlt := lt_of_get hn
  have f1 : ∀ e ∈ (setNode t x { n with box := B }).entries, Good t.dims e.box := h.ent
  have f2 : ∀ k ∈ (setNode t x { n with box := B }).nodes, Good t.dims k.box := by
    intro k hk
    rcases mem_setNode hk with rfl | hk
    · exact g1
    · exact h.nodeG k hk
  have f3 : ∀ lvl c, occ (setNode t x { n with box := B }) lvl c + orph.count (c, lvl) = if isItem (setNode t x { n with box := B }) c lvl then 1 else 0 := by
    intro lvl c
    rw [isItem_setNode (n' := { n with box := B }) hn rfl, ← h.cnt lvl c]
    have := occ_setNode (n' := { n with box := B }) hn lvl c
    have e : contrib lvl c { n with box := B } = contrib lvl c n := rfl
    omega
  have f5 : ∀ (i : Nat) (k : Node), (setNode t x { n with box := B }).nodes[i]? = some k →
      (none ≠ some i → k.ch.length ≤ MAXN) ∧ (none = some i → k.ch.length = MAXN + 1) ∧
      1 ≤ k.ch.length ∧ (t.root ≠ some i → m ≤ k.ch.length) ∧ (t.root = some i → 0 < k.level → 2 ≤ k.ch.length) := by
    intro i k hk
    rw [setNode_get hlt] at hk
    by_cases hix : x = i
    · rw [if_pos hix] at hk
      cases hk
      subst hix
      exact h.size x n hn
    · rw [if_neg hix] at hk
      exact h.size i k hk
  have f6 : tg = true → ∀ H, (∀ e ∈ t.entries, Le t.dims e.box H) → ∀ k ∈ (setNode t x { n with box := B }).nodes, Le t.dims k.box H := by
    intro ht H hH k hk
    rcases mem_setNode hk with rfl | hk
    · refine g3 H fun b hb => ?_
      obtain ⟨c, hc, hcb⟩ := hb1 b hb
      exact h.tight_getBox ht hcb hH
    · exact h.tight ht H hH k hk
  -- parents other than the parent of `x`
  have f4 : ∀ (i : Nat) (k : Node) (c : Nat) (b : Box), (setNode t x { n with box := B }).nodes[i]? = some k → c ∈ k.ch →
      getBox (setNode t x { n with box := B }) c k.level = .ok b → (i = x ∨ k.level = 0 ∨ c ≠ x) → Le t.dims b k.box := by
    intro i k c b hk hc hb hor
    rw [setNode_get hlt] at hk
    by_cases hix : x = i
    · rw [if_pos hix] at hk
      cases hk
      have hbb : getBox t c n.level = .ok b := by
        rw [← hb]; symm
        apply getBox_setNode_ne
        by_cases h0 : n.level = 0
        · exact Or.inl h0
        · right
          rintro rfl
          have hit := h.item_of_child hn hc
          obtain ⟨k, hk⟩ : ∃ k, n.level = k + 1 := ⟨n.level - 1, by omega⟩
          rw [hk] at hit
          rw [isItem_succ, hn] at hit
          simp at hit
          omega
      obtain ⟨b', hb', hcb'⟩ := hb2 c hc
      rw [hbb] at hcb'; cases hcb'
      exact g2 b hb'
    · rw [if_neg hix] at hk
      have hor' : k.level = 0 ∨ c ≠ x := by
        rcases hor with rfl | hor
        · exact absurd rfl hix
        · exact hor
      rw [getBox_setNode_ne hor'] at hb
      exact h.le i k c b (fun he => hix he.symm) hk hc hb
  have key : ∀ (i : Nat) (k : Node) (c : Nat), (setNode t x { n with box := B }).nodes[i]? = some k → c ∈ k.ch →
      (i = x ∨ k.level = 0 ∨ c ≠ x) ∨ (t.nodes[i]? = some k ∧ k.level = n.level + 1 ∧ x ∈ k.ch) := by
    intro i k c hk hc
    by_cases hix : i = x
    · exact Or.inl (Or.inl hix)
    · by_cases h0 : k.level = 0 ∨ c ≠ x
      · exact Or.inl (Or.inr h0)
      · have h1 : k.level ≠ 0 := fun h1 => h0 (Or.inl h1)
        have h2 : c = x := Decidable.byContradiction fun h2 => h0 (Or.inr h2)
        subst h2
        rw [setNode_get hlt, if_neg (fun he => hix he.symm)] at hk
        have hit := h.item_of_child hk hc
        obtain ⟨q, hq⟩ : ∃ q, k.level = q + 1 := ⟨k.level - 1, by omega⟩
        rw [hq] at hit
        rw [isItem_succ, hn] at hit
        simp at hit
        exact Or.inr ⟨hk, by omega, hc⟩
  refine ⟨B, by rw [Tree.recalc, getNode_ok hn, Res.ok_bind, hbs, Res.ok_bind, hB], ⟨f1, f2, f3, ?_, f5, f6⟩, fun hno => ⟨f1, f2, f3, ?_, f5, f6⟩⟩
  · intro i k c b hi hk hc hb
    rcases key i k c hk hc with hor | ⟨h1, h2, h3⟩
    · exact f4 i k c b hk hc hb hor
    · exact absurd (hy i k h1 h2 h3) hi
  · intro i k c b hk hc hb
    rcases key i k c hk hc with hor | ⟨h1, h2, h3⟩
    · exact f4 i k c b hk hc hb hor
    · exact absurd h3 (hno i k h1 h2)

/-- What an update below node `i` does. -/
def UpdPost (m : Nat) (tg : Bool) (t t' : Tree P) (orph : List (Nat × Nat)) (i : Nat) (B : Box) (o : Option Nat) : Prop :=
  match o with
  | none => t' = t
  | some c => CoreX m tg t' orph i ∧ SameKids t t' ∧ ∃ e, t.entries[c]? = some e ∧ t'.entries = t.entries.set c { e with box := B }

mutual
theorem Core.updateRec_spec (h : Core m tg t orph none) {p lo hi : List Nat} (hb : IsBox t.dims lo hi)
    (hg : tg = true → ∀ c e, t.entries[c]? = some e → hit t p c = true → Le t.dims e.box (Box.mk' lo hi)) (k i : Nat) (n : Node)
    (hn : t.nodes[i]? = some n) (hl : n.level = k) :
    ∃ t', updateRec p lo hi (k + 1) t i = .ok (t', ((sub t k i).find? (hit t p)).isSome) ∧
      UpdPost m tg t t' orph i (Box.mk' lo hi) ((sub t k i).find? (hit t p)) := by
  cases k with
  | zero =>
    rw [updateRec, getNode_ok hn, Res.ok_bind, if_pos hl]
    show ∃ t', _ = Res.ok (t', ((kids t i).find? (hit t p)).isSome) ∧ UpdPost m tg t t' orph i (Box.mk' lo hi) ((kids t i).find? (hit t p))
    rw [kids_eq hn, firstContaining_eq t p n.ch (fun c hc => by
      obtain ⟨e, he, _⟩ := h.kid_entry hn hl hc; exact ⟨e, he⟩), Res.ok_bind]
    cases hf : n.ch.find? (hit t p) with
    | none => exact ⟨t, rfl, rfl⟩
    | some c =>
      have hc := List.mem_of_find?_eq_some hf
      have hh := List.find?_some hf
      obtain ⟨e, he, _⟩ := h.kid_entry hn hl hc
      dsimp only
      rw [getEntry, he]
      exact ⟨_, rfl, h.setEntry hn hl hc he (Good.mk' hb) (fun ht => hg ht c e he hh),
        ⟨rfl, rfl, rfl, rfl, fun _ p h => ⟨p.box, h⟩⟩, e, he, rfl⟩
  | succ k =>
    rw [updateRec, getNode_ok hn, Res.ok_bind, if_neg (by omega)]
    show ∃ t', _ = Res.ok (t', (((kids t i).flatMap (sub t k)).find? (hit t p)).isSome) ∧
      UpdPost m tg t t' orph i (Box.mk' lo hi) (((kids t i).flatMap (sub t k)).find? (hit t p))
    rw [kids_eq hn]
    exact h.updateKids_spec hb hg k i n hn hl n.ch (fun _ hc => hc)
  termination_by (k, 0)
theorem Core.updateKids_spec (h : Core m tg t orph none) {p lo hi : List Nat} (hb : IsBox t.dims lo hi)
    (hg : tg = true → ∀ c e, t.entries[c]? = some e → hit t p c = true → Le t.dims e.box (Box.mk' lo hi)) (k i : Nat) (n : Node)
    (hn : t.nodes[i]? = some n) (hl : n.level = k + 1) (cs : List Nat) (hcs : ∀ c ∈ cs, c ∈ n.ch) :
    ∃ t', updateKids (updateRec p lo hi (k + 1)) t cs = .ok (t', ((cs.flatMap (sub t k)).find? (hit t p)).isSome) ∧
      UpdPost m tg t t' orph i (Box.mk' lo hi) ((cs.flatMap (sub t k)).find? (hit t p)) := by
  cases cs with
  | nil => exact ⟨t, by rw [updateKids]; rfl, rfl⟩
  | cons c cs =>
    have hc := hcs c (by simp)
    obtain ⟨nc, h1, h2, _⟩ := h.kid_node hn hl hc
    obtain ⟨t1, e1, e2⟩ := h.updateRec_spec hb hg k c nc h1 h2
    rw [updateKids, e1, Res.ok_bind, List.flatMap_cons, List.find?_append]
    cases hf : (sub t k c).find? (hit t p) with
    | none =>
      rw [hf] at e2
      have e2' : t = t1 := Eq.symm e2
      subst e2'
      exact h.updateKids_spec hb hg k i n hn hl cs (fun x hx => hcs x (by simp [hx]))
    | some d =>
      rw [hf] at e2
      obtain ⟨f1, ⟨d1, d2, d3, d5, d4⟩, e, f3, f4⟩ := e2
      obtain ⟨Bc, hc1⟩ := d4 c nc h1
      obtain ⟨Bi, hi1⟩ := d4 i n hn
      obtain ⟨B, r1, r2, _⟩ := f1.recalc (y := i) hc1 (by
        intro j q hj hq hcq
        exact f1.parent_unique hj hi1 (by show q.level = n.level; rw [hq]; show nc.level + 1 = _; omega) hcq hc)
      refine ⟨_, by simp only [Option.isSome_some, if_true, Option.some_or]; rw [r1]; rfl, r2, ⟨d1, d2, d3, by show (t1.nodes.set _ _).length = _; rw [List.length_set, d5], ?_⟩, e, f3, f4⟩
      intro j q hj
      obtain ⟨Bq, hq⟩ := d4 j q hj
      rw [setNode_get (lt_of_get hc1)]
      by_cases hcj : c = j
      · subst hcj
        rw [h1] at hj; cases hj
        exact ⟨B, by rw [if_pos rfl]⟩
      · exact ⟨Bq, by rw [if_neg hcj]; exact hq⟩
  termination_by (k, cs.length + 1)
end

end

/-- `UpdateBoundingBox` on a non-empty tree. -/
theorem updateBoundingBox_spec {m : Nat} {tg : Bool} {t : Tree P} (h : Inv m tg t [] none) (hlast : ∀ l, t.last = some l → l < t.entries.length)
    {p lo hi : List Nat} (hb : IsBox t.dims lo hi)
    (hg : tg = true → ∀ c e, t.entries[c]? = some e → hit t p c = true → Le t.dims e.box (Box.mk' lo hi)) :
    ∃ t', updateBoundingBox t p lo hi = .ok t' ∧ WF m tg t' ∧ Inv m tg t' [] none ∧ t'.dims = t.dims ∧
      ((t' = t ∧ ∀ (c : Nat) (e : Entry P), t.entries[c]? = some e → e.box.contains p = false) ∨
       ∃ c e, t.entries[c]? = some e ∧ e.box.contains p = true ∧ t'.entries = t.entries.set c { e with box := Box.mk' lo hi }) := by
  obtain ⟨r, n, hr, hn, htop⟩ := h.top
  obtain ⟨t1, e1, e2⟩ := h.core.updateRec_spec hb hg n.level r n hn rfl
  have hsub := h.sub_root hr hn
  unfold updateBoundingBox
  rw [hr]
  dsimp only
  rw [height_eq hr hn, e1, Res.ok_bind]
  dsimp only
  cases hf : (sub t n.level r).find? (hit t p) with
  | none =>
    rw [hf] at e2
    have e2' : t1 = t := e2
    subst e2'
    refine ⟨t1, by rfl, ⟨Or.inr h, hlast⟩, h, rfl, Or.inl ⟨rfl, fun c e he => ?_⟩⟩
    rw [List.find?_eq_none] at hf
    have := hf c (hsub.mem_iff.2 (List.mem_range.2 (lt_of_get he)))
    rw [hit_eq he] at this
    simpa using this
  | some c =>
    rw [hf] at e2
    obtain ⟨f1, ⟨d1, d2, d3, d5, d4⟩, e, f3, f4⟩ := e2
    obtain ⟨Br, hr1⟩ := d4 r n hn
    have hno : ∀ (j : Nat) (q : Node), t1.nodes[j]? = some q → q.level = ({ n with box := Br } : Node).level + 1 → r ∉ q.ch := by
      intro j q hj hq hrq
      have hq' : q.level = n.level + 1 := hq
      have := f1.cnt (n.level + 1) r
      rw [rootC_of hr hn] at this
      have h3 := occ_pos hj hrq
      rw [hq'] at h3
      have h4 : List.count (r, n.level + 1) ([(r, n.level + 1)] ++ []) = 1 := by simp
      rw [h4] at this
      split at this <;> omega
    obtain ⟨B, q1, _, q3⟩ := f1.recalc (y := r) hr1 (by
      intro j q hj hq hrq
      exact absurd hrq (hno j q hj hq))
    have q4 := q3 hno
    have htop1 : Top (setNode t1 r { n with box := B }) := by
      refine ⟨r, { n with box := B }, by show t1.root = _; rw [d2, hr], by rw [setNode_get (lt_of_get hr1), if_pos rfl], ?_⟩
      intro x hx
      obtain ⟨j, hj⟩ := List.getElem?_of_mem hx
      show x.level ≤ n.level
      rw [setNode_get (lt_of_get hr1)] at hj
      by_cases hrj : r = j
      · rw [if_pos hrj] at hj; cases hj; exact Nat.le_refl _
      · rw [if_neg hrj] at hj
        have hlt : j < t.nodes.length := by rw [← d5]; exact lt_of_get hj
        obtain ⟨B2, hB2⟩ := d4 j _ (List.getElem?_eq_getElem hlt)
        rw [hj] at hB2; cases hB2
        exact htop t.nodes[j] (List.getElem_mem hlt)
    have hrc : rootC (setNode t1 r { n with box := B }) = rootC t := by
      rw [rootC_of hr hn]
      exact rootC_of (t := setNode t1 r { n with box := B }) (n := { n with box := B }) (by show t1.root = _; rw [d2, hr])
        (by rw [setNode_get (lt_of_get hr1), if_pos rfl])
    have hinv : Inv m tg (setNode t1 r { n with box := B }) [] none := ⟨by rw [hrc]; exact q4, htop1⟩
    have hent : (setNode t1 r { n with box := B }).entries = t.entries.set c { e with box := Box.mk' lo hi } := f4
    refine ⟨setNode t1 r { n with box := B }, by simp only [Option.isSome_some, if_true]; exact q1, ⟨Or.inr hinv, ?_⟩, hinv, d1,
      Or.inr ⟨c, e, f3, ?_, f4⟩⟩
    · intro l hl
      have hl' : t1.last = some l := hl
      rw [d3] at hl'
      rw [hent, List.length_set]
      exact hlast l hl'
    · have := List.find?_some hf
      rwa [hit_eq f3] at this

end Verif.Tree
