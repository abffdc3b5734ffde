import Verif.Tree.Insert2
/-
Queries: the leaves below the root are exactly the entries.
-/
namespace Verif.Tree
open Verif Verif.ND

variable {P : Type}

/-- Children of a node slot. -/
def kids (t : Tree P) (i : Nat) : List Nat :=
  match t.nodes[i]? with
  | some n => n.ch
  | none => []

theorem kids_eq {t : Tree P} {i : Nat} {n : Node} (h : t.nodes[i]? = some n) : kids t i = n.ch := by unfold kids; rw [h]

/-- Entry slots below a node of level `k`, from left to right. -/
def sub (t : Tree P) : Nat → Nat → List Nat
  | 0, i => kids t i
  | k + 1, i => (kids t i).flatMap (sub t k)

/-- The slots of the nodes of level `k`. -/
def layer (t : Tree P) (k : Nat) : List Nat := (List.range t.nodes.length).filter fun i => isItem t i (k + 1)

theorem mem_layer {t : Tree P} {k i : Nat} : i ∈ layer t k ↔ isItem t i (k + 1) = true := by
  unfold layer
  rw [List.mem_filter, List.mem_range]
  refine ⟨fun h => h.2, fun h => ⟨?_, h⟩⟩
  obtain ⟨n, hn, _⟩ := isItem_succ.1 h
  exact lt_of_get hn

theorem layer_nodup (t : Tree P) (k : Nat) : (layer t k).Nodup := List.nodup_range.filter _

theorem count_layer (t : Tree P) (k c : Nat) : (layer t k).count c = if isItem t c (k + 1) then 1 else 0 := by
  rw [(layer_nodup t k).count]
  simp only [mem_layer]

/-- Counting children of a layer by position or by node gives the same. -/
theorem sum_flatMap_aux (lvl c : Nat) : ∀ (ns : List Node),
    (((List.range ns.length).filter fun i => match ns[i]? with | some n => decide (n.level = lvl) | none => false).flatMap
      fun i => match ns[i]? with | some n => n.ch | none => []).count c = (ns.map (contrib lvl c)).sum
  | [] => rfl
  | n :: ns => by
      have ih := sum_flatMap_aux lvl c ns
      rw [List.length_cons, List.range_succ_eq_map, List.filter_cons]
      have e1 : ((List.range ns.length).map Nat.succ).filter (fun i => match (n :: ns)[i]? with | some n => decide (n.level = lvl) | none => false)
          = ((List.range ns.length).filter fun i => match ns[i]? with | some n => decide (n.level = lvl) | none => false).map Nat.succ := by
        rw [List.filter_map]
        congr 1
      have e2 : ∀ l : List Nat, (l.map Nat.succ).flatMap (fun i => match (n :: ns)[i]? with | some n => n.ch | none => [])
          = l.flatMap fun i => match ns[i]? with | some n => n.ch | none => [] := by
        intro l
        rw [List.flatMap_map]
        rfl
      rw [e1]
      show List.count c (List.flatMap _ (if decide (n.level = lvl) = true then _ else _)) = _
      rw [List.map_cons, List.sum_cons, ← ih]
      by_cases h : n.level = lvl
      · rw [decide_eq_true h, if_pos rfl, List.flatMap_cons, e2, List.count_append]
        show n.ch.count c + _ = _
        rw [contrib, if_pos h]
      · rw [decide_eq_false h, if_neg (by simp), e2, contrib, if_neg h, Nat.zero_add]

theorem count_kids_layer (t : Tree P) (k c : Nat) : ((layer t k).flatMap (kids t)).count c = occ t k c := sum_flatMap_aux k c t.nodes

section inv
variable {m : Nat} {tg : Bool} {t : Tree P}

theorem Inv.occ_eq (h : Inv m tg t [] none) {r : Nat} {n : Node} (hr : t.root = some r) (hn : t.nodes[r]? = some n) {k : Nat} (hk : k ≤ n.level) (c : Nat) :
    occ t k c = if isItem t c k then 1 else 0 := by
  have := h.core.cnt k c
  rw [rootC_of hr hn] at this
  have h2 : List.count (c, k) ([(r, n.level + 1)] ++ []) = 0 := by
    rw [List.append_nil, List.count_singleton]
    split
    · next hx => simp only [beq_iff_eq, Prod.mk.injEq] at hx; omega
    · rfl
  rw [h2] at this
  exact this

theorem perm_of_count {l l' : List Nat} (h : ∀ c, l.count c = l'.count c) : l.Perm l' := List.perm_iff_count.2 h

theorem Inv.layer_step (h : Inv m tg t [] none) {r : Nat} {n : Node} (hr : t.root = some r) (hn : t.nodes[r]? = some n) {k : Nat} (hk : k + 1 ≤ n.level) :
    ((layer t (k + 1)).flatMap (kids t)).Perm (layer t k) := by
  apply perm_of_count
  intro c
  rw [count_kids_layer, count_layer]
  exact h.occ_eq hr hn hk c

theorem Inv.layer_zero (h : Inv m tg t [] none) : ((layer t 0).flatMap (kids t)).Perm (List.range t.entries.length) := by
  obtain ⟨r, n, hr, hn, _⟩ := h.top
  apply perm_of_count
  intro c
  rw [count_kids_layer, h.occ_eq hr hn (Nat.zero_le _), List.nodup_range.count]
  simp only [isItem, List.mem_range, decide_eq_true_eq]

theorem Inv.layer_top (h : Inv m tg t [] none) {r : Nat} {n : Node} (hr : t.root = some r) (hn : t.nodes[r]? = some n) :
    (layer t n.level).Perm [r] := by
  apply perm_of_count
  intro c
  rw [count_layer]
  have := h.core.cnt (n.level + 1) c
  rw [rootC_of hr hn, List.append_nil] at this
  have h0 : occ t (n.level + 1) c = 0 := by
    refine Nat.eq_zero_of_not_pos fun hp => ?_
    obtain ⟨i, p, h1, h2, _⟩ := exists_parent hp
    obtain ⟨r', n', e1, e2, e3⟩ := h.top
    rw [hr] at e1; cases e1
    rw [hn] at e2; cases e2
    have := e3 p (List.mem_of_getElem? h1)
    omega
  rw [h0, Nat.zero_add] at this
  rw [← this]
  simp only [List.count_singleton, beq_iff_eq, Prod.mk.injEq, and_true]

theorem Inv.sub_layer (h : Inv m tg t [] none) {r : Nat} {n : Node} (hr : t.root = some r) (hn : t.nodes[r]? = some n) :
    ∀ k, k ≤ n.level → ((layer t k).flatMap (sub t k)).Perm (List.range t.entries.length)
  | 0, _ => by
      show ((layer t 0).flatMap (kids t)).Perm _
      exact h.layer_zero
  | k + 1, hk => by
      have e : (layer t (k + 1)).flatMap (sub t (k + 1)) = ((layer t (k + 1)).flatMap (kids t)).flatMap (sub t k) := by
        rw [List.flatMap_assoc]; rfl
      rw [e]
      exact ((h.layer_step hr hn hk).flatMap_right _).trans (h.sub_layer hr hn k (by omega))

/-- Every entry is below the root exactly once. -/
theorem Inv.sub_root (h : Inv m tg t [] none) {r : Nat} {n : Node} (hr : t.root = some r) (hn : t.nodes[r]? = some n) :
    (sub t n.level r).Perm (List.range t.entries.length) := by
  have := ((h.layer_top hr hn).symm.flatMap_right (sub t n.level)).trans (h.sub_layer hr hn n.level (Nat.le_refl _))
  simpa using this

end inv

/-! ### What is below a node -/

section core
variable {m : Nat} {tg : Bool} {t : Tree P} {orph : List (Nat × Nat)} {ov : Option Nat}

theorem Core.kid_node (h : Core m tg t orph ov) {i k : Nat} {n : Node} (hn : t.nodes[i]? = some n) (hl : n.level = k + 1) {c : Nat} (hc : c ∈ n.ch) :
    ∃ nc, t.nodes[c]? = some nc ∧ nc.level = k ∧ Le t.dims nc.box n.box := by
  have hit := h.item_of_child hn hc
  rw [hl] at hit
  obtain ⟨nc, h1, h2⟩ := isItem_succ.1 hit
  exact ⟨nc, h1, h2, h.le i n c nc.box hn hc (by rw [hl]; exact getBox_succ h1)⟩

theorem Core.kid_entry (h : Core m tg t orph ov) {i : Nat} {n : Node} (hn : t.nodes[i]? = some n) (hl : n.level = 0) {c : Nat} (hc : c ∈ n.ch) :
    ∃ e, t.entries[c]? = some e ∧ Le t.dims e.box n.box := by
  have hit := h.item_of_child hn hc
  rw [hl] at hit
  have hlt : c < t.entries.length := by simpa [isItem] using hit
  exact ⟨_, List.getElem?_eq_getElem hlt, h.le i n c _ hn hc (by rw [hl]; exact getBox_zero (List.getElem?_eq_getElem hlt))⟩

theorem Core.sub_entry (h : Core m tg t orph ov) : ∀ (k i : Nat) (n : Node), t.nodes[i]? = some n → n.level = k → ∀ c ∈ sub t k i,
    ∃ e, t.entries[c]? = some e ∧ Le t.dims e.box n.box
  | 0, i, n, hn, hl, c, hc => by
      have hc' : c ∈ kids t i := hc
      rw [kids_eq hn] at hc'
      exact h.kid_entry hn hl hc'
  | k + 1, i, n, hn, hl, c, hc => by
      have hc' : c ∈ (kids t i).flatMap (sub t k) := hc
      rw [kids_eq hn] at hc'
      obtain ⟨d, hd, hcd⟩ := List.mem_flatMap.1 hc'
      obtain ⟨nd, h1, h2, h3⟩ := h.kid_node hn hl hd
      obtain ⟨e, h4, h5⟩ := h.sub_entry k d nd h1 h2 c hcd
      exact ⟨e, h4, h5.trans h3⟩

/-! ### Point search -/

/-- Does the entry in slot `c` contain the point? -/
def hit (t : Tree P) (p : List Nat) (c : Nat) : Bool :=
  match t.entries[c]? with
  | some e => e.box.contains p
  | none => false

theorem hit_eq {t : Tree P} {p : List Nat} {c : Nat} {e : Entry P} (h : t.entries[c]? = some e) : hit t p c = e.box.contains p := by
  unfold hit; rw [h]

theorem contains_mono {d : Nat} {a b : Box} {p : List Nat} (ha : Good d a) (hb : Good d b) (hl : Le d a b) (hp : p.length = d) (hps : Small p)
    (h : a.contains p = true) : b.contains p = true := by
  rw [ha.1, contains_iff ha.2 hp hps] at h
  rw [hb.1, contains_iff hb.2 hp hps]
  obtain ⟨h1, h2, h3⟩ := h
  obtain ⟨l1, l2, _⟩ := hb.2
  obtain ⟨l3, l4, _⟩ := ha.2
  refine ⟨by omega, by omega, fun i hi => ?_⟩
  have := hl i (by omega)
  have := h3 i (by omega)
  omega

theorem firstContaining_eq (t : Tree P) (p : List Nat) : ∀ (cs : List Nat), (∀ c ∈ cs, ∃ e, t.entries[c]? = some e) →
    firstContaining t p cs = .ok (cs.find? (hit t p))
  | [], _ => rfl
  | c :: cs, h => by
      obtain ⟨e, he⟩ := h c (by simp)
      rw [firstContaining, getEntry, he]
      dsimp only
      rw [Res.ok_bind, firstContaining_eq t p cs (fun x hx => h x (by simp [hx])), List.find?_cons, hit_eq he]
      cases e.box.contains p <;> rfl

mutual
theorem Core.searchRec_eq (h : Core m tg t orph ov) {p : List Nat} (hp : p.length = t.dims) (hps : Small p) (k i : Nat) (n : Node)
    (hn : t.nodes[i]? = some n) (hl : n.level = k) : searchRec t p (k + 1) i = .ok ((sub t k i).find? (hit t p)) := by
  cases k with
  | zero =>
    rw [searchRec, getNode_ok hn, Res.ok_bind, if_pos hl]
    show _ = Res.ok ((kids t i).find? (hit t p))
    rw [kids_eq hn]
    exact firstContaining_eq t p n.ch fun c hc => by
      obtain ⟨e, he, _⟩ := h.kid_entry hn hl hc; exact ⟨e, he⟩
  | succ k =>
    rw [searchRec, getNode_ok hn, Res.ok_bind, if_neg (by omega)]
    show _ = Res.ok (((kids t i).flatMap (sub t k)).find? (hit t p))
    rw [kids_eq hn]
    exact h.searchKids_eq hp hps k n.ch fun c hc => by
      obtain ⟨nc, h1, h2, _⟩ := h.kid_node hn hl hc; exact ⟨nc, h1, h2⟩
  termination_by (k, 0)
theorem Core.searchKids_eq (h : Core m tg t orph ov) {p : List Nat} (hp : p.length = t.dims) (hps : Small p) (k : Nat) (cs : List Nat)
    (hc : ∀ c ∈ cs, ∃ nc, t.nodes[c]? = some nc ∧ nc.level = k) :
    searchKids t p (searchRec t p (k + 1)) cs = .ok ((cs.flatMap (sub t k)).find? (hit t p)) := by
  cases cs with
  | nil => rw [searchKids]; rfl
  | cons c cs =>
    obtain ⟨nc, h1, h2⟩ := hc c (by simp)
    rw [searchKids, getNode_ok h1, Res.ok_bind, h.searchKids_eq hp hps k cs (fun x hx => hc x (by simp [hx])), List.flatMap_cons, List.find?_append]
    by_cases hcon : nc.box.contains p = true
    · rw [if_pos hcon, h.searchRec_eq hp hps k c nc h1 h2, Res.ok_bind]
      cases (sub t k c).find? (hit t p) <;> rfl
    · rw [if_neg hcon]
      have hnone : (sub t k c).find? (hit t p) = none := by
        rw [List.find?_eq_none]
        intro x hx hhit
        obtain ⟨e, he, hle⟩ := h.sub_entry k c nc h1 h2 x hx
        rw [hit_eq he] at hhit
        exact hcon (contains_mono (h.ent e (List.mem_of_getElem? he)) (h.nodeG nc (List.mem_of_getElem? h1)) hle hp hps hhit)
      rw [hnone]; rfl
  termination_by (k, cs.length + 1)
end

/-! ### Region search -/

theorem overlaps_mono {d : Nat} {q a b : Box} (hq : q.start.length = d) (hl : Le d a b) (h : q.overlaps a = true) : q.overlaps b = true := by
  unfold Box.overlaps at h ⊢
  rw [List.all_eq_true] at h ⊢
  intro i hi
  have h1 := h i hi
  have h2 := hl i (by rw [← hq]; exact List.mem_range.1 hi)
  simp only [Bool.and_eq_true, decide_eq_true_eq] at h1 ⊢
  omega

/-- The payload of an entry if it overlaps the region. -/
def pick (t : Tree P) (q : Box) (c : Nat) : Option P :=
  match t.entries[c]? with
  | some e => if q.overlaps e.box then some e.payload else none
  | none => none

theorem pick_eq {t : Tree P} {q : Box} {c : Nat} {e : Entry P} (h : t.entries[c]? = some e) :
    pick t q c = if q.overlaps e.box then some e.payload else none := by unfold pick; rw [h]

theorem overlapping_eq (t : Tree P) (q : Box) : ∀ (cs : List Nat), (∀ c ∈ cs, ∃ e, t.entries[c]? = some e) →
    overlapping t q cs = .ok (cs.filterMap (pick t q))
  | [], _ => rfl
  | c :: cs, h => by
      obtain ⟨e, he⟩ := h c (by simp)
      rw [overlapping, getEntry, he]
      dsimp only
      rw [Res.ok_bind, overlapping_eq t q cs (fun x hx => h x (by simp [hx])), Res.ok_bind, List.filterMap_cons, pick_eq he]
      cases q.overlaps e.box <;> rfl

mutual
theorem Core.regionRec_eq (h : Core m tg t orph ov) {q : Box} (hq : q.start.length = t.dims) (k i : Nat) (n : Node)
    (hn : t.nodes[i]? = some n) (hl : n.level = k) : regionRec t q (k + 1) i = .ok ((sub t k i).filterMap (pick t q)) := by
  cases k with
  | zero =>
    rw [regionRec, getNode_ok hn, Res.ok_bind, if_pos hl]
    show _ = Res.ok ((kids t i).filterMap (pick t q))
    rw [kids_eq hn]
    exact overlapping_eq t q n.ch fun c hc => by
      obtain ⟨e, he, _⟩ := h.kid_entry hn hl hc; exact ⟨e, he⟩
  | succ k =>
    rw [regionRec, getNode_ok hn, Res.ok_bind, if_neg (by omega)]
    show _ = Res.ok (((kids t i).flatMap (sub t k)).filterMap (pick t q))
    rw [kids_eq hn]
    exact h.regionKids_eq hq k n.ch fun c hc => by
      obtain ⟨nc, h1, h2, _⟩ := h.kid_node hn hl hc; exact ⟨nc, h1, h2⟩
  termination_by (k, 0)
theorem Core.regionKids_eq (h : Core m tg t orph ov) {q : Box} (hq : q.start.length = t.dims) (k : Nat) (cs : List Nat)
    (hc : ∀ c ∈ cs, ∃ nc, t.nodes[c]? = some nc ∧ nc.level = k) :
    regionKids t q (regionRec t q (k + 1)) cs = .ok ((cs.flatMap (sub t k)).filterMap (pick t q)) := by
  cases cs with
  | nil => rw [regionKids]; rfl
  | cons c cs =>
    obtain ⟨nc, h1, h2⟩ := hc c (by simp)
    rw [regionKids, getNode_ok h1, Res.ok_bind, h.regionKids_eq hq k cs (fun x hx => hc x (by simp [hx])), List.flatMap_cons, List.filterMap_append]
    by_cases hcon : q.overlaps nc.box = true
    · rw [if_pos hcon, h.regionRec_eq hq k c nc h1 h2, Res.ok_bind, Res.ok_bind]
    · rw [if_neg hcon]
      have hnone : (sub t k c).filterMap (pick t q) = [] := by
        rw [List.filterMap_eq_nil_iff]
        intro x hx
        obtain ⟨e, he, hle⟩ := h.sub_entry k c nc h1 h2 x hx
        rw [pick_eq he, if_neg]
        intro ho
        exact hcon (overlaps_mono hq hle ho)
      rw [hnone]; rfl
  termination_by (k, cs.length + 1)
end

end core

theorem filterMap_range {α β : Type} (f : α → Option β) : ∀ (l : List α),
    (List.range l.length).filterMap (fun i => match l[i]? with | some a => f a | none => none) = l.filterMap f
  | [] => rfl
  | a :: l => by
      rw [List.length_cons, List.range_succ_eq_map, List.filterMap_cons, List.filterMap_map, List.filterMap_cons]
      have := filterMap_range f l
      show (match f a with | none => _ | some b => _) = _
      cases f a with
      | none => exact this
      | some b => exact congrArg (b :: ·) this

end Verif.Tree
