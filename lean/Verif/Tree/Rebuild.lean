import Verif.Tree.Update
/-
`RebuildSTR`: terminates, keeps the entries, yields the invariant.
-/
namespace Verif.Tree
open Verif Verif.ND

variable {P : Type}

theorem slabs_spec {α : Type} {eps : Nat} (he : 0 < eps) : ∀ (fuel : Nat) (l : List α), l.length ≤ fuel →
    ∃ ss, slabs eps fuel l = some ss ∧ ss.flatten = l ∧ (∀ s ∈ ss, s ≠ [] ∧ s.length ≤ eps) ∧
      (2 ≤ l.length → 2 ≤ eps → ∃ s ∈ ss, 2 ≤ s.length)
  | fuel, [], _ => ⟨[], by cases fuel <;> rfl, rfl, by simp, by simp⟩
  | 0, a :: l, h => by simp at h
  | fuel + 1, a :: l, h => by
      have hd : ((a :: l).drop eps).length ≤ fuel := by
        rw [List.length_drop]; simp only [List.length_cons] at h ⊢; omega
      obtain ⟨ss, e1, e2, e3, _⟩ := slabs_spec he fuel ((a :: l).drop eps) hd
      refine ⟨(a :: l).take eps :: ss, ?_, ?_, ?_, ?_⟩
      · rw [slabs, e1]; rfl
        intro h; cases h
      · rw [List.flatten_cons, e2, List.take_append_drop]
      · intro s hs
        rcases List.mem_cons.1 hs with rfl | hs
        · constructor
          · intro h0
            have : ((a :: l).take eps).length = 0 := by rw [h0]; rfl
            rw [List.length_take, List.length_cons] at this; omega
          · rw [List.length_take]; omega
        · exact e3 s hs
      · intro h2 h3
        exact ⟨(a :: l).take eps, by simp, by rw [List.length_take]; omega⟩

/-- What a partition into groups has to satisfy. -/
structure Grouped {α : Type} (l : List α) (gs : List (List α)) : Prop where
  perm : gs.flatten.Perm l
  size : ∀ g ∈ gs, g ≠ [] ∧ g.length ≤ MAXN
  big : 2 ≤ l.length → ∃ g ∈ gs, 2 ≤ g.length

theorem strAll_spec {α : Type} (S : Sorter) (Z : SlabSize) (getBox : α → Box) (axis rem : Nat)
    (ih : ∀ l : List α, ∃ gs, strGroups S Z getBox axis rem l = .ok gs ∧ Grouped l gs) :
    ∀ ss : List (List α), ∃ gs, strAll (strGroups S Z getBox axis rem) ss = .ok gs ∧ gs.flatten.Perm ss.flatten ∧
      (∀ g ∈ gs, g ≠ [] ∧ g.length ≤ MAXN) ∧ ((∃ s ∈ ss, 2 ≤ s.length) → ∃ g ∈ gs, 2 ≤ g.length)
  | [] => ⟨[], by rw [strAll], by simp, by simp, by simp⟩
  | s :: ss => by
      obtain ⟨g, e1, e2⟩ := ih s
      obtain ⟨gs, f1, f2, f3, f4⟩ := strAll_spec S Z getBox axis rem ih ss
      refine ⟨g ++ gs, by rw [strAll, e1, Res.ok_bind]; rw [f1]; rfl, ?_, ?_, ?_⟩
      · rw [List.flatten_append, List.flatten_cons]; exact e2.perm.append f2
      · intro x hx
        rcases List.mem_append.1 hx with hx | hx
        · exact e2.size x hx
        · exact f3 x hx
      · rintro ⟨x, hx, h2⟩
        rcases List.mem_cons.1 hx with rfl | hx
        · obtain ⟨y, hy, h⟩ := e2.big h2; exact ⟨y, by simp [hy], h⟩
        · obtain ⟨y, hy, h⟩ := f4 ⟨x, hx, h2⟩; exact ⟨y, by simp [hy], h⟩

theorem strGroups_spec {α : Type} (S : Sorter) (Z : SlabSize) (getBox : α → Box) : ∀ (rem axis : Nat) (l : List α),
    ∃ gs, strGroups S Z getBox axis (rem + 1) l = .ok gs ∧ Grouped l gs
  | 0, axis, l => by
      rw [strGroups]
      have hp := S.perm (fun a b => decide ((getBox a).copy.center.getD axis 0 < (getBox b).copy.center.getD axis 0)) l
      generalize S.run (fun a b => decide ((getBox a).copy.center.getD axis 0 < (getBox b).copy.center.getD axis 0)) l = l1 at hp ⊢
      obtain ⟨ss, e1, e2, e3, e4⟩ := slabs_spec (eps := MAXN) (by decide) l1.length l1 (Nat.le_refl _)
      rw [if_pos rfl, e1, Res.ofLoop, Res.ok_bind, if_pos rfl]
      have : (ss.all fun s => decide (s.length ≤ MAXN)) = true := by
        rw [List.all_eq_true]; intro s hs; exact decide_eq_true (e3 s hs).2
      rw [this, Res.assert_true, Res.ok_bind]
      refine ⟨ss, rfl, ?_, e3, fun h => e4 (by rw [hp.length_eq]; exact h) (by decide)⟩
      rw [e2]; exact hp
  | rem + 1, axis, l => by
      rw [strGroups]
      have hp := S.perm (fun a b => decide ((getBox a).copy.center.getD axis 0 < (getBox b).copy.center.getD axis 0)) l
      generalize S.run (fun a b => decide ((getBox a).copy.center.getD axis 0 < (getBox b).copy.center.getD axis 0)) l = l1 at hp ⊢
      rw [if_neg (by omega)]
      have key : ∃ ss, slabs (Z.run ((l1.length + MAXN - 1) / MAXN) (rem + 1 + 1)) l1.length l1 = some ss ∧ ss.flatten = l1 ∧
          (2 ≤ l1.length → ∃ s ∈ ss, 2 ≤ s.length) := by
        cases l1 with
        | nil => exact ⟨[], rfl, rfl, by simp⟩
        | cons a l1 =>
          have hge := Z.ge (((a :: l1).length + MAXN - 1) / MAXN) (rem + 1 + 1) (by
            simp only [List.length_cons]; show 0 < (l1.length + 1 + 10 - 1) / 10; omega)
          have hge' : 10 ≤ Z.run (((a :: l1).length + MAXN - 1) / MAXN) (rem + 1 + 1) := hge
          obtain ⟨ss, e1, e2, _, e4⟩ := slabs_spec (eps := Z.run (((a :: l1).length + MAXN - 1) / MAXN) (rem + 1 + 1)) (by omega) (a :: l1).length (a :: l1) (Nat.le_refl _)
          exact ⟨ss, e1, e2, fun h => e4 h (by omega)⟩
      obtain ⟨ss, e1, e2, e4⟩ := key
      rw [e1, Res.ofLoop, Res.ok_bind, if_neg (by omega)]
      obtain ⟨gs, f1, f2, f3, f4⟩ := strAll_spec S Z getBox (axis + 1) (rem + 1) (fun l => strGroups_spec S Z getBox rem (axis + 1) l) ss
      refine ⟨gs, f1, ?_, f3, fun h => f4 (e4 (by rw [hp.length_eq]; exact h))⟩
      rw [e2] at f2
      exact f2.trans hp

theorem Grouped.length_le {α : Type} : ∀ {gs : List (List α)}, (∀ g ∈ gs, g ≠ []) → gs.length ≤ gs.flatten.length
  | [], _ => by simp
  | g :: gs, h => by
      have := Grouped.length_le (gs := gs) (fun x hx => h x (by simp [hx]))
      have hg := List.length_pos_iff.2 (h g (by simp))
      rw [List.flatten_cons, List.length_append, List.length_cons]; omega

theorem Grouped.length_lt' {α : Type} : ∀ {gs : List (List α)}, (∀ g ∈ gs, g ≠ []) → (∃ g ∈ gs, 2 ≤ g.length) → gs.length < gs.flatten.length
  | [], _, h => by simp at h
  | g :: gs, h, ⟨x, hx, h2⟩ => by
      have hle := Grouped.length_le (gs := gs) (fun x hx => h x (by simp [hx]))
      have hg := List.length_pos_iff.2 (h g (by simp))
      rw [List.flatten_cons, List.length_append, List.length_cons]
      rcases List.mem_cons.1 hx with rfl | hx
      · omega
      · have := Grouped.length_lt' (gs := gs) (fun x hx => h x (by simp [hx])) ⟨x, hx, h2⟩
        omega

theorem Grouped.length_lt {α : Type} {l : List α} {gs : List (List α)} (h : Grouped l gs) (h2 : 2 ≤ l.length) : gs.length < l.length := by
  rw [← h.perm.length_eq]
  exact Grouped.length_lt' (fun g hg => (h.size g hg).1) (h.big h2)

theorem Grouped.ne_nil {α : Type} {l : List α} {gs : List (List α)} (h : Grouped l gs) (hl : l ≠ []) : gs ≠ [] := by
  rintro rfl
  exact hl (List.length_eq_zero_iff.1 (by have := h.perm.length_eq; simpa using this.symm))

/-! ### Building nodes -/

section
variable {tg : Bool}

theorem Core.addEntries {m : Nat} {ov : Option Nat} : ∀ (g : List (Entry P)) (t : Tree P) (orph : List (Nat × Nat)), Core m tg t orph ov →
    (∀ e ∈ g, Good t.dims e.box) →
    Core m tg { t with entries := t.entries ++ g } (((List.range g.length).map (t.entries.length + ·)).map (fun x => (x, 0)) ++ orph) ov
  | [], t, orph, h, _ => by
      have : ({ t with entries := t.entries ++ [] } : Tree P) = t := by cases t; simp
      rw [this]; exact h
  | e :: g, t, orph, h, hg => by
      have h1 := h.addEntry (e := e) (hg e (by simp))
      have h2 := Core.addEntries g _ _ h1 (fun x hx => hg x (by simp [hx]))
      have e1 : ({ Tree.addEntry t e with entries := (Tree.addEntry t e).entries ++ g } : Tree P) = { t with entries := t.entries ++ e :: g } := by
        simp [Tree.addEntry]
      rw [e1] at h2
      refine h2.perm ?_
      have e2 : (Tree.addEntry t e).entries.length = t.entries.length + 1 := by simp [Tree.addEntry]
      have e3 : (List.range (e :: g).length).map (t.entries.length + ·) =
          t.entries.length :: (List.range g.length).map (t.entries.length + 1 + ·) := by
        rw [List.length_cons, List.range_succ_eq_map, List.map_cons, List.map_map, Nat.add_zero]
        congr 1
        apply List.map_congr_left; intro a _; show t.entries.length + (a + 1) = _; omega
      rw [e2, e3, List.map_cons, List.cons_append]
      exact List.perm_middle

theorem count_pairs (cs : List Nat) (lvl l c : Nat) (orph : List (Nat × Nat)) :
    (if lvl = l then cs.count c else 0) + orph.count (c, l) = (cs.map (fun x => (x, lvl)) ++ orph).count (c, l) := by
  rw [List.count_append, count_map_pair]

theorem addLeaves_spec : ∀ (gs : List (List (Entry P))) (t : Tree P) (orph : List (Nat × Nat)), Core 1 tg t orph none → t.root = none →
    (∀ g ∈ gs, g ≠ [] ∧ g.length ≤ MAXN) → (∀ g ∈ gs, ∀ e ∈ g, Good t.dims e.box) →
    ∃ t' slots, addLeaves gs t = .ok (t', slots) ∧ slots.length = gs.length ∧ t'.entries = t.entries ++ gs.flatten ∧ t'.root = none ∧
      t'.dims = t.dims ∧ t'.last = t.last ∧ Core 1 tg t' (slots.map (fun x => (x, 1)) ++ orph) none ∧ (∀ n ∈ t'.nodes, n ∈ t.nodes ∨ n.level = 0)
  | [], t, orph, h, hr, _, _ => ⟨t, [], rfl, rfl, by simp, hr, rfl, rfl, h, fun n hn => Or.inl hn⟩
  | g :: gs, t, orph, h, hr, hs, hg => by
      obtain ⟨g1, g2⟩ := hs g (by simp)
      have hpos := List.length_pos_iff.2 g1
      have c1 := Core.addEntries g t orph h (hg g (by simp))
      obtain ⟨B, b1, b2, b3, _⟩ := c1.build (lvl := 0) (cs := (List.range g.length).map (t.entries.length + ·)) (orph' := orph)
        (fun l c => count_pairs _ 0 l c orph) (by simp) (by show t.root ≠ _; rw [hr]; simp) (by simp; omega)
      obtain ⟨t', slots, e1, e2, e3, e4, e5, e6, e7, e8⟩ := addLeaves_spec gs _ _ b3 hr (fun x hx => hs x (by simp [hx]))
        (fun x hx => hg x (by simp [hx]))
      refine ⟨t', t.nodes.length :: slots, ?_, by simp [e2], ?_, e4, e5, e6, ?_, ?_⟩
      · rw [addLeaves, b1, Res.ok_bind]
        dsimp only
        rw [b2, Res.ok_bind, e1]
        rfl
      · rw [e3]; show (t.entries ++ g) ++ _ = _; simp
      · refine e7.perm ?_
        rw [List.map_cons, List.cons_append]
        exact List.perm_middle
      · intro n hn
        rcases e8 n hn with hn | hn
        · rcases List.mem_append.1 hn with hn | hn
          · exact Or.inl hn
          · rw [List.mem_singleton.1 hn]; exact Or.inr rfl
        · exact Or.inr hn

theorem addNodes_spec (lvl : Nat) : ∀ (gs : List (List Nat)) (t : Tree P) (orph : List (Nat × Nat)),
    Core 1 tg t (gs.flatten.map (fun x => (x, lvl)) ++ orph) none → t.root = none →
    (∀ g ∈ gs, g ≠ [] ∧ g.length ≤ MAXN) →
    ∃ t' slots new, addNodes lvl gs t = .ok (t', slots) ∧ slots.length = gs.length ∧ t'.entries = t.entries ∧ t'.root = none ∧
      t'.dims = t.dims ∧ t'.last = t.last ∧ Core 1 tg t' (slots.map (fun x => (x, lvl + 1)) ++ orph) none ∧
      t'.nodes = t.nodes ++ new ∧ (∀ n ∈ new, n.level = lvl) ∧
      (∀ s ∈ slots, ∃ n, t'.nodes[s]? = some n ∧ n.level = lvl ∧ n.ch ∈ gs)
  | [], t, orph, h, hr, _ => ⟨t, [], [], rfl, rfl, rfl, hr, rfl, rfl, h, by simp, by simp, by simp⟩
  | g :: gs, t, orph, h, hr, hs => by
      obtain ⟨g1, g2⟩ := hs g (by simp)
      have hpos := List.length_pos_iff.2 g1
      obtain ⟨B, b1, b2, b3, _⟩ := h.build (lvl := lvl) (cs := g) (orph' := gs.flatten.map (fun x => (x, lvl)) ++ orph)
        (fun l c => by rw [count_pairs, List.flatten_cons, List.map_append, List.append_assoc]) (by simp) (by rw [hr]; simp) ⟨g2, hpos, hpos⟩
      have b4 : Core 1 tg (Tree.addNode t ⟨B, lvl, g⟩) (gs.flatten.map (fun x => (x, lvl)) ++ ((t.nodes.length, lvl + 1) :: orph)) none :=
        b3.perm List.perm_middle.symm
      obtain ⟨t', slots, new, e1, e2, e3, e4, e5, e6, e7, e8, e9, e10⟩ := addNodes_spec lvl gs _ _ b4 hr (fun x hx => hs x (by simp [hx]))
      have e8' : t'.nodes = t.nodes ++ (⟨B, lvl, g⟩ :: new) := by rw [e8]; show (t.nodes ++ [_]) ++ _ = _; simp
      refine ⟨t', t.nodes.length :: slots, ⟨B, lvl, g⟩ :: new, ?_, by simp [e2], e3, e4, e5, e6, ?_, e8', ?_, ?_⟩
      · rw [addNodes, b1, Res.ok_bind]
        dsimp only
        rw [b2, Res.ok_bind, e1]
        rfl
      · refine e7.perm ?_
        rw [List.map_cons, List.cons_append]
        exact List.perm_middle
      · intro n hn
        rcases List.mem_cons.1 hn with rfl | hn
        · rfl
        · exact e9 n hn
      · intro s hsl
        rcases List.mem_cons.1 hsl with rfl | hsl
        · exact ⟨⟨B, lvl, g⟩, by rw [e8']; simp, rfl, by simp⟩
        · obtain ⟨n, h1, h2, h3⟩ := e10 s hsl
          exact ⟨n, h1, h2, by simp [h3]⟩

theorem strLayers_spec (S : Sorter) (Z : SlabSize) {d : Nat} : ∀ (fuel lvl : Nat) (t : Tree P) (slots : List Nat), t.dims = d + 1 →
    Core 1 tg t (slots.map (fun x => (x, lvl + 1))) none → t.root = none → slots ≠ [] → slots.length < fuel →
    (∀ n ∈ t.nodes, n.level ≤ lvl) →
    (slots.length = 1 → ∀ s ∈ slots, ∀ n, t.nodes[s]? = some n → 0 < n.level → 2 ≤ n.ch.length) →
    ∃ t' r n, strLayers S Z fuel (lvl + 1) t slots = .ok (t', [r]) ∧ t'.entries = t.entries ∧ t'.dims = t.dims ∧ t'.last = t.last ∧ t'.root = none ∧
      t'.nodes[r]? = some n ∧ Core 1 tg t' [(r, n.level + 1)] none ∧ (∀ n' ∈ t'.nodes, n'.level ≤ n.level) ∧ (0 < n.level → 2 ≤ n.ch.length)
  | 0, _, _, _, _, _, _, _, h, _, _ => by omega
  | fuel + 1, lvl, t, slots, hd, h, hr, hne, hf, hlev, hone => by
      rw [strLayers]
      by_cases h1 : 1 < slots.length
      · rw [if_pos h1, hd]
        obtain ⟨gs, e1, e2⟩ := strGroups_spec S Z (nodeBoxD t) d 0 slots
        rw [e1, Res.ok_bind]
        have c1 : Core 1 tg t (gs.flatten.map (fun x => (x, lvl + 1)) ++ []) none := by
          rw [List.append_nil]
          exact h.perm (e2.perm.symm.map _)
        obtain ⟨t1, sl, new, f1, f2, f3, f4, f5, f6, f7, f8, f9, f10⟩ := addNodes_spec (lvl + 1) gs t [] c1 hr e2.size
        rw [f1, Res.ok_bind]
        rw [List.append_nil] at f7
        have hlt := e2.length_lt h1
        obtain ⟨t', r, n, g1, g2, g3, g4, g5, g6, g7, g8, g9⟩ := strLayers_spec S Z (d := d) fuel (lvl + 1) t1 sl (by rw [f5, hd]) f7 f4
          (by
            intro h0; rw [h0] at f2
            exact e2.ne_nil hne (List.length_eq_zero_iff.1 (by simpa using f2.symm)))
          (by omega)
          (by
            intro n hn
            rw [f8] at hn
            rcases List.mem_append.1 hn with hn | hn
            · have := hlev n hn; omega
            · have := f9 n hn; omega)
          (by
            intro hl s hs n hn _
            obtain ⟨n', k1, _, k3⟩ := f10 s hs
            rw [hn] at k1; cases k1
            -- a single group contains all slots of the layer below
            obtain ⟨g, hg⟩ : ∃ g, gs = [g] := by
              rw [hl] at f2
              exact List.length_eq_one_iff.1 f2.symm
            rw [hg] at k3
            have hng : n.ch = g := by simpa using k3
            have hp := e2.perm
            rw [hg] at hp
            have := hp.length_eq
            rw [hng]
            simp at this
            omega)
        exact ⟨t', r, n, g1, by rw [g2, f3], by rw [g3, f5, hd], by rw [g4, f6], g5, g6, g7, g8, g9⟩
      · rw [if_neg h1]
        have hl1 : slots.length = 1 := by have := List.length_pos_iff.2 hne; omega
        obtain ⟨r, rfl⟩ := List.length_eq_one_iff.1 hl1
        have hit := h.item_of_orph (c := r) (lvl := lvl + 1) (by simp)
        obtain ⟨n, hn, hnl⟩ := isItem_succ.1 hit
        refine ⟨t, r, n, rfl, rfl, rfl, rfl, hr, hn, ?_, ?_, hone hl1 r (by simp) n hn⟩
        · rw [hnl]; exact h
        · rw [hnl]; exact hlev

/-- `RebuildSTR` of a non-empty tree. -/
theorem rebuildSTR_spec (S : Sorter) (Z : SlabSize) {d : Nat} {t : Tree P} (hd : t.dims = d + 1) (hne : t.entries ≠ [])
    (hG : ∀ e ∈ t.entries, Good t.dims e.box) :
    ∃ t', rebuildSTR S Z t = .ok t' ∧ Inv 1 tg t' [] none ∧ t'.dims = t.dims ∧ t'.entries.Perm t.entries ∧ t'.last = none := by
  unfold rebuildSTR
  dsimp only
  obtain ⟨gs, e1, e2⟩ := strGroups_spec S Z (Entry.box (P := P)) d 0 t.entries
  rw [hd, e1, Res.ok_bind]
  obtain ⟨t1, slots, f1, f2, f3, f4, f5, f6, f7, f8⟩ := addLeaves_spec (tg := tg) gs ⟨t.dims, [], [], none, none⟩ [] (Core.empty 1 tg t.dims none) rfl e2.size
    (fun g hg e he => hG e (e2.perm.mem_iff.1 (List.mem_flatten.2 ⟨g, hg, he⟩)))
  rw [hd] at f1
  rw [f1, Res.ok_bind]
  rw [List.append_nil] at f7
  obtain ⟨t', r, n, g1, g2, g3, g4, g5, g6, g7, g8, g9⟩ := strLayers_spec S Z (d := d) (slots.length + 1) 0 t1 slots (by rw [f5]; exact hd) f7 f4
    (by
      intro h0; rw [h0] at f2
      exact e2.ne_nil hne (List.length_eq_zero_iff.1 (by simpa using f2.symm)))
    (by omega)
    (by
      intro n hn
      rcases f8 n hn with hn | hn
      · simp at hn
      · omega)
    (by
      intro _ s _ n hn h0
      rcases f8 n (List.mem_of_getElem? hn) with hn | hn
      · simp at hn
      · omega)
  rw [g1, Res.ok_bind]
  dsimp only
  refine ⟨_, rfl, ⟨?_, ⟨r, n, rfl, g6, g8⟩⟩, ?_, ?_, ?_⟩
  · rw [rootC_of (t := { t' with root := some r }) rfl g6, List.append_nil]
    exact g7.setRoot g6 g9 (by intro i n hi; rw [g5] at hi; cases hi)
  · show t'.dims = _; rw [g3, f5]; exact hd
  · show t'.entries.Perm _; rw [g2, f3]; exact e2.perm
  · show t'.last = _; rw [g4, f6]

end

end Verif.Tree
