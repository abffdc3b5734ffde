import Verif.Tree.Dump
import Mathlib.Data.List.Perm.Basic
/-
C95: the file written by `DumpJSONTreeStructure` is a JSON text that lists the nodes and entries of the index.
-/
namespace Verif.Tree
open Verif Verif.ND Verif.Json

variable {P : Type}

/-! ### Specification -/

/-- A list of numbers. -/
def numbers (l : List Nat) : Json := .arr (l.map .num)

/-- The members that describe a box. -/
def boxMembers (b : Box) : List (List Nat × Json) :=
  [(bytesOf "start_coords", numbers b.start), (bytesOf "end_coords", numbers b.stop), (bytesOf "shape", numbers b.shape)]

/-- The object that describes a node or an entry. -/
def describe : Node ⊕ Entry P → Json
  | .inl n => .obj ((bytesOf "type", .str (bytesOf "Node")) :: boxMembers n.box ++ [(bytesOf "level", .num n.level)])
  | .inr e => .obj ((bytesOf "type", .str (bytesOf "Entry")) :: boxMembers e.box)

/-- A node of level `k`, followed by its entries if it is a leaf, else by everything at and below its first child, its second child, and so on. -/
def preorder (t : Tree P) : Nat → Nat → List (Node ⊕ Entry P)
  | 0, i => match t.nodes[i]? with
    | some n => .inl n :: (n.ch.filterMap (t.entries[·]?)).map .inr
    | none => []
  | k + 1, i => match t.nodes[i]? with
    | some n => .inl n :: n.ch.flatMap (preorder t k)
    | none => []

/-! ### Proof: the text -/

theorem ws_nil : Ws [] := by intro c hc; cases hc
theorem ws_lf : Ws [0x0a] := by intro c hc; simp at hc; simp [hc]
theorem ws_sp : Ws [0x20] := by intro c hc; simp at hc; simp [hc]

theorem text_num (k n : Nat) : Text k (.num n) (toStr n) := by
  cases k <;> exact toStr_ok n

theorem sep_vec (k : Nat) : ∀ (v : List Nat) (w : List Nat), Ws w → Sep (Text k) (v.map .num) (w ++ vecBody v)
  | [], w, h => by rw [vecBody, List.append_nil]; exact .none h
  | [x], w, h => by
    have := Sep.one (is := Text k) h (text_num k x) ws_nil
    rwa [List.append_nil] at this
  | x :: y :: l, w, h => by
    have := Sep.cons (is := Text k) h (text_num k x) ws_nil (sep_vec k (y :: l) [0x20] ws_sp)
    have e : bytesOf ", " = [0x2c, 0x20] := by decide
    rw [vecBody, e]
    simpa using this

theorem text_vec (k : Nat) (v : List Nat) : Text (k + 1) (numbers v) (vecText v) := by
  refine ⟨vecBody v, ?_, ?_⟩
  · simpa using sep_vec k v [] ws_nil
  · have e1 : bytesOf "[" = [0x5b] := by decide
    have e2 : bytesOf "]" = [0x5d] := by decide
    rw [vecText, e1, e2]; rfl

theorem member {k : Nat} {key : List Nat} {v : Json} {s : List Nat} (h : Plain key) (hv : Text k v s) :
    Member (Text k) (key, v) (0x22 :: key ++ [0x22, 0x3a, 0x20] ++ s) := ⟨[], [0x20], s, h, ws_nil, ws_sp, hv, by simp⟩

theorem plain_type : Plain (bytesOf "type") := by unfold Plain; decide
theorem plain_start : Plain (bytesOf "start_coords") := by unfold Plain; decide
theorem plain_end : Plain (bytesOf "end_coords") := by unfold Plain; decide
theorem plain_shape : Plain (bytesOf "shape") := by unfold Plain; decide
theorem plain_level : Plain (bytesOf "level") := by unfold Plain; decide
theorem plain_node : Plain (bytesOf "Node") := by unfold Plain; decide
theorem plain_entry : Plain (bytesOf "Entry") := by unfold Plain; decide

/-- The text of an object, without what comes before it. -/
def objText (x : Node ⊕ Entry P) : List Nat := match x with
  | .inl n => (nodeText n true).drop 1
  | .inr e => (entryText e true).drop 1

theorem begin_true : beginText true = [0x0a, 0x7b, 0x0a] := by decide
theorem begin_false : beginText false = [0x2c, 0x0a, 0x7b, 0x0a] := by decide

theorem nodeText_eq (n : Node) (first : Bool) : nodeText n first = (if first then [] else [0x2c]) ++ 0x0a :: objText (P := P) (.inl n) := by
  cases first <;> simp [objText, nodeText, begin_true, begin_false]

theorem entryText_eq (e : Entry P) : entryText e false = 0x2c :: 0x0a :: objText (.inr e) := by
  simp [objText, entryText, begin_true, begin_false]

theorem b_type_node : bytesOf "\"type\": \"Node\",\n" = 0x22 :: bytesOf "type" ++ [0x22, 0x3a, 0x20] ++ (0x22 :: bytesOf "Node" ++ [0x22]) ++ [0x2c, 0x0a] := by decide
theorem b_type_entry : bytesOf "\"type\": \"Entry\",\n" = 0x22 :: bytesOf "type" ++ [0x22, 0x3a, 0x20] ++ (0x22 :: bytesOf "Entry" ++ [0x22]) ++ [0x2c, 0x0a] := by decide
theorem b_start : bytesOf "\"start_coords\": " = 0x22 :: bytesOf "start_coords" ++ [0x22, 0x3a, 0x20] := by decide
theorem b_end : bytesOf "\"end_coords\": " = 0x22 :: bytesOf "end_coords" ++ [0x22, 0x3a, 0x20] := by decide
theorem b_shape : bytesOf "\"shape\": " = 0x22 :: bytesOf "shape" ++ [0x22, 0x3a, 0x20] := by decide
theorem b_level : bytesOf "\"level\": " = 0x22 :: bytesOf "level" ++ [0x22, 0x3a, 0x20] := by decide
theorem b_comma : bytesOf ",\n" = [0x2c, 0x0a] := by decide
theorem b_lf : bytesOf "\n" = [0x0a] := by decide
theorem b_close : bytesOf "}" = [0x7d] := by decide

theorem text_obj (x : Node ⊕ Entry P) : Text 2 (describe x) (objText x) := by
  cases x with
  | inl n =>
    have m0 := member (k := 1) plain_type (v := .str (bytesOf "Node")) ⟨plain_node, rfl⟩
    have m1 := member plain_start (text_vec 0 n.box.start)
    have m2 := member plain_end (text_vec 0 n.box.stop)
    have m3 := member plain_shape (text_vec 0 n.box.shape)
    have m4 := member plain_level (text_num 1 n.level)
    refine ⟨_, .cons ws_lf m0 ws_nil (.cons ws_lf m1 ws_nil (.cons ws_lf m2 ws_nil (.cons ws_lf m3 ws_nil (.one ws_lf m4 ws_lf)))), ?_⟩
    simp [objText, nodeText, begin_true, b_type_node, b_start, b_end, b_shape, b_level, b_comma, b_lf, b_close]
  | inr e =>
    have m0 := member (k := 1) plain_type (v := .str (bytesOf "Entry")) ⟨plain_entry, rfl⟩
    have m1 := member plain_start (text_vec 0 e.box.start)
    have m2 := member plain_end (text_vec 0 e.box.stop)
    have m3 := member plain_shape (text_vec 0 e.box.shape)
    refine ⟨_, .cons ws_lf m0 ws_nil (.cons ws_lf m1 ws_nil (.cons ws_lf m2 ws_nil (.one ws_lf m3 ws_lf))), ?_⟩
    simp [objText, entryText, begin_true, b_type_entry, b_start, b_end, b_shape, b_comma, b_lf, b_close]

/-- Objects after the first one. -/
def more (l : List (Node ⊕ Entry P)) : List Nat := l.flatMap fun x => 0x2c :: 0x0a :: objText x

theorem sep_objs : ∀ (x : Node ⊕ Entry P) (l : List (Node ⊕ Entry P)), Sep (Text 2) ((x :: l).map describe) (0x0a :: objText x ++ more l ++ [0x0a])
  | x, [] => by
    have := Sep.one (is := Text 2) ws_lf (text_obj x) ws_lf
    simpa [more] using this
  | x, y :: l => by
    have := Sep.cons (is := Text 2) ws_lf (text_obj x) ws_nil (sep_objs y l)
    simpa [more] using this

/-! ### Proof: what is written -/

section core
variable {m : Nat} {tg : Bool} {t : Tree P} {orph : List (Nat × Nat)} {ov : Option Nat}

theorem dumpEntries_eq (t : Tree P) : ∀ (cs : List Nat), (∀ c ∈ cs, ∃ e, t.entries[c]? = some e) →
    dumpEntries t cs = .ok (more ((cs.filterMap (t.entries[·]?)).map (.inr : Entry P → Node ⊕ Entry P)))
  | [], _ => rfl
  | c :: cs, h => by
    obtain ⟨e, he⟩ := h c (by simp)
    rw [dumpEntries, getEntry, he]
    dsimp only
    rw [Res.ok_bind, dumpEntries_eq t cs (fun x hx => h x (by simp [hx])), Res.ok_bind, entryText_eq, List.filterMap_cons, he]
    rfl

theorem preorder_zero {i : Nat} {n : Node} (hn : t.nodes[i]? = some n) : preorder t 0 i = .inl n :: (n.ch.filterMap (t.entries[·]?)).map .inr := by
  rw [preorder, hn]
theorem preorder_succ {k i : Nat} {n : Node} (hn : t.nodes[i]? = some n) : preorder t (k + 1) i = .inl n :: n.ch.flatMap (preorder t k) := by
  rw [preorder, hn]

theorem dumpKids_eq (f : Nat → Res (List Nat)) (g : Nat → List (Node ⊕ Entry P)) : ∀ (cs : List Nat), (∀ c ∈ cs, f c = .ok (more (g c))) →
    dumpKids f cs = .ok (more (cs.flatMap g))
  | [], _ => rfl
  | c :: cs, h => by
    rw [dumpKids, h c (by simp), Res.ok_bind, dumpKids_eq f g cs (fun x hx => h x (by simp [hx])), Res.ok_bind]
    simp [more]

theorem Core.dumpRec_eq (h : Core m tg t orph ov) : ∀ (k i : Nat) (n : Node) (first : Bool), t.nodes[i]? = some n → n.level = k →
    ∃ l, preorder t k i = .inl n :: l ∧ dumpRec t (k + 1) first i = .ok ((if first then [] else [0x2c]) ++ 0x0a :: objText (P := P) (.inl n) ++ more l)
  | 0, i, n, first, hn, hl => by
    refine ⟨_, preorder_zero hn, ?_⟩
    rw [dumpRec, getNode_ok hn, Res.ok_bind, if_pos hl, dumpEntries_eq t n.ch fun c hc => by
      obtain ⟨e, he, _⟩ := h.kid_entry hn hl hc; exact ⟨e, he⟩, Res.ok_bind, nodeText_eq (P := P)]
  | k + 1, i, n, first, hn, hl => by
    refine ⟨_, preorder_succ hn, ?_⟩
    rw [dumpRec, getNode_ok hn, Res.ok_bind, if_neg (by omega), dumpKids_eq _ (preorder t k) n.ch fun c hc => by
      obtain ⟨nc, h1, h2, _⟩ := h.kid_node hn hl hc
      obtain ⟨l, e1, e2⟩ := h.dumpRec_eq k c nc false h1 h2
      rw [e1, e2]; simp [more], Res.ok_bind, nodeText_eq (P := P)]

end core

/-! ### Proof: everything is listed once -/

/-- The nodes at and below a node of level `k`. -/
def nodesOf (t : Tree P) : Nat → Nat → List Nat
  | 0, i => [i]
  | k + 1, i => i :: (kids t i).flatMap (nodesOf t k)

/-- The nodes of the levels up to `k`. -/
def upTo (t : Tree P) (k : Nat) : List Nat :=
  (List.range t.nodes.length).filter fun i => match t.nodes[i]? with | some n => decide (n.level ≤ k) | none => false

theorem upTo_succ (t : Tree P) (k : Nat) : (layer t (k + 1) ++ upTo t k).Perm (upTo t (k + 1)) := by
  apply perm_of_count
  intro c
  have h1 : (upTo t k).Nodup := List.nodup_range.filter _
  have h2 : (upTo t (k + 1)).Nodup := List.nodup_range.filter _
  rw [List.count_append, (layer_nodup t (k + 1)).count, h1.count, h2.count]
  have e1 : c ∈ layer t (k + 1) ↔ ∃ n, t.nodes[c]? = some n ∧ n.level = k + 1 := mem_layer.trans isItem_succ
  have e2 : ∀ j, c ∈ upTo t j ↔ ∃ n, t.nodes[c]? = some n ∧ n.level ≤ j := by
    intro j
    unfold upTo
    rw [List.mem_filter, List.mem_range]
    constructor
    · rintro ⟨_, h⟩
      cases hc : t.nodes[c]? with
      | none => rw [hc] at h; cases h
      | some n => rw [hc] at h; exact ⟨n, rfl, of_decide_eq_true h⟩
    · rintro ⟨n, hn, hj⟩
      refine ⟨lt_of_get hn, ?_⟩
      rw [hn]; exact decide_eq_true hj
  simp only [e1, e2]
  cases hc : t.nodes[c]? with
  | none => simp
  | some n =>
    simp only [Option.some.injEq, exists_eq_left']
    by_cases a : n.level = k + 1
    · rw [if_pos a, if_neg (by omega), if_pos (by omega)]
    · by_cases b : n.level ≤ k
      · rw [if_neg a, if_pos b, if_pos (by omega)]
      · rw [if_neg a, if_neg b, if_neg (by omega)]

section inv
variable {m : Nat} {tg : Bool} {t : Tree P}

theorem Inv.nodes_layer (h : Inv m tg t [] none) {r : Nat} {n : Node} (hr : t.root = some r) (hn : t.nodes[r]? = some n) :
    ∀ k, k ≤ n.level → ((layer t k).flatMap (nodesOf t k)).Perm (upTo t k)
  | 0, _ => by
    have e : (layer t 0).flatMap (nodesOf t 0) = layer t 0 := by
      show (layer t 0).flatMap (fun i => [i]) = _
      simp
    have e2 : upTo t 0 = layer t 0 := by
      unfold upTo layer
      refine List.filter_congr fun i _ => ?_
      show _ = match t.nodes[i]? with | some n => decide (n.level = 0) | none => false
      cases t.nodes[i]? with
      | none => rfl
      | some n => simp
    rw [e, e2]
  | k + 1, hk => by
    have e : ((layer t (k + 1)).flatMap fun i => [i] ++ (kids t i).flatMap (nodesOf t k)).Perm
        ((layer t (k + 1)).flatMap (fun i => [i]) ++ (layer t (k + 1)).flatMap fun i => (kids t i).flatMap (nodesOf t k)) :=
      (List.flatMap_append_perm _ _ _).symm
    refine e.trans ?_
    rw [← List.flatMap_assoc, List.flatMap_singleton']
    exact (List.Perm.append_left _ (((h.layer_step hr hn hk).flatMap_right _).trans (h.nodes_layer hr hn k (by omega)))).trans (upTo_succ t k)

theorem Inv.nodes_root (h : Inv m tg t [] none) {r : Nat} {n : Node} (hr : t.root = some r) (hn : t.nodes[r]? = some n) :
    (nodesOf t n.level r).Perm (List.range t.nodes.length) := by
  have h1 := ((h.layer_top hr hn).symm.flatMap_right (nodesOf t n.level)).trans (h.nodes_layer hr hn n.level (Nat.le_refl _))
  have h2 : upTo t n.level = List.range t.nodes.length := by
    unfold upTo
    rw [List.filter_eq_self]
    intro i hi
    have hi' := List.mem_range.1 hi
    rw [List.getElem?_eq_getElem hi']
    obtain ⟨r', n', e1, e2, e3⟩ := h.top
    rw [hr] at e1; cases e1
    rw [hn] at e2; cases e2
    exact decide_eq_true (e3 _ (List.getElem_mem hi'))
  rw [h2] at h1
  simpa using h1

end inv

section core
variable {m : Nat} {tg : Bool} {t : Tree P} {orph : List (Nat × Nat)} {ov : Option Nat}

theorem Core.preorder_perm (h : Core m tg t orph ov) : ∀ (k i : Nat) (n : Node), t.nodes[i]? = some n → n.level = k →
    (preorder t k i).Perm (((nodesOf t k i).filterMap (t.nodes[·]?)).map .inl ++ ((sub t k i).filterMap (t.entries[·]?)).map .inr)
  | 0, i, n, hn, hl => by
    rw [preorder_zero hn, nodesOf, sub, kids_eq hn, List.filterMap_cons, hn]
    exact .refl _
  | k + 1, i, n, hn, hl => by
    rw [preorder_succ hn, nodesOf, sub, kids_eq hn, List.filterMap_cons, hn]
    dsimp only
    rw [List.map_cons, List.cons_append]
    refine List.Perm.cons _ ?_
    rw [List.filterMap_flatMap, List.filterMap_flatMap, List.map_flatMap, List.map_flatMap]
    refine (List.Perm.flatMap_left _ fun c hc => ?_).trans (List.flatMap_append_perm _ _ _).symm
    obtain ⟨nc, h1, h2, _⟩ := h.kid_node hn hl hc
    exact h.preorder_perm k c nc h1 h2

end core

theorem filterMap_get {α : Type} (l : List α) : (List.range l.length).filterMap (l[·]?) = l := by
  have h := filterMap_range (some : α → Option α) l
  rw [List.filterMap_some] at h
  refine Eq.trans (congrArg (fun f => List.filterMap f (List.range l.length)) (funext fun i => ?_)) h
  cases l[i]? <;> rfl

/-! ### C95 -/

/-- C95: whatever was done to the index before, the file is a JSON array of objects, one for every node and every entry of the index, each with its type, the start, the end
    and the shape of its box and, for nodes, the level; and a node comes directly before what is below it, child by child. -/
theorem C95_dump {S : Sorter} {Z : SlabSize} {d : Nat} (hd : 0 < d) {gr rb : Bool} {t : Tree P} (h : Reach S Z d gr rb t) :
    ∃ file l, dumpJson t = .ok file ∧ IsJson file (.arr (l.map describe)) ∧ l.Perm (t.nodes.map .inl ++ t.entries.map .inr) ∧
      (t.entries = [] → l = []) ∧ (t.entries ≠ [] → ∃ r n, t.root = some r ∧ t.nodes[r]? = some n ∧ l = preorder t n.level r) := by
  obtain ⟨h1, h2⟩ := h.wf hd
  have b1 : bytesOf "[" = [0x5b] := by decide
  have b2 : bytesOf "\n]\n" = [0x0a, 0x5d, 0x0a] := by decide
  unfold dumpJson
  rcases h2.shape with ⟨r1, r2, r3⟩ | hi
  · rw [r1, r2, r3]
    refine ⟨_, [], rfl, ⟨1, [], _, [0x0a], ws_nil, ⟨[0x0a], .none ws_lf, rfl⟩, ws_lf, by decide⟩, .refl _, fun _ => rfl, fun h => absurd rfl h⟩
  · obtain ⟨r, n, hr, hn, _⟩ := hi.top
    obtain ⟨l, e1, e2⟩ := hi.core.dumpRec_eq n.level r n true hn rfl
    rw [hr]
    dsimp only
    rw [height_eq hr hn, e2, Res.ok_bind]
    refine ⟨_, .inl n :: l, rfl, ⟨3, [], _, [0x0a], ws_nil, ⟨_, sep_objs (.inl n) l, rfl⟩, ws_lf, ?_⟩, ?_, fun h0 => ?_, fun _ => ⟨r, n, rfl, hn, e1.symm⟩⟩
    · rw [b1, b2]; simp
    · rw [← e1]
      refine (hi.core.preorder_perm n.level r n hn rfl).trans ?_
      refine List.Perm.append ?_ ?_
      · have := ((hi.nodes_root hr hn).filterMap (t.nodes[·]?)).map (.inl : Node → Node ⊕ Entry P)
        rwa [filterMap_get] at this
      · have := ((hi.sub_root hr hn).filterMap (t.entries[·]?)).map (.inr : Entry P → Node ⊕ Entry P)
        rwa [filterMap_get] at this
    · exfalso
      have hp := hi.sub_root hr hn
      rw [h0] at hp
      have hs : sub t n.level r = [] := hp.eq_nil
      have : ∀ (k i : Nat) (n : Node), t.nodes[i]? = some n → n.level = k → sub t k i ≠ [] := by
        intro k
        induction k with
        | zero =>
          intro i n hn hl e
          have := (hi.core.size i n hn).2.2.1
          rw [sub, kids_eq hn] at e
          rw [e] at this; simp at this
        | succ k ih =>
          intro i n hn hl e
          have := (hi.core.size i n hn).2.2.1
          rw [sub, kids_eq hn] at e
          match hc : n.ch with
          | [] => rw [hc] at this; simp at this
          | c :: cs =>
            rw [hc, List.flatMap_cons] at e
            obtain ⟨nc, a1, a2, _⟩ := hi.core.kid_node hn hl (c := c) (by simp [hc])
            exact ih c nc a1 a2 (List.append_eq_nil_iff.1 e).1
      exact this n.level r n hn rfl hs

/-! ### Concrete cases -/

namespace Ex95

/-- An index with 12 entries in two leaves. -/
def ops : List (Op Nat) := Ex.cells 12

theorem reach : ∃ t, run Ex.S Ex.Z ops (empty 2) = .ok t ∧ Reach Ex.S Ex.Z 2 false true t := by
  obtain ⟨t, h1, h2, _⟩ := C20_all_entries (S := Ex.S) (Z := Ex.Z) (by decide) ops (empty 2) [] false .empty (by simp [Tree.empty]) (.refl _) (by decide +kernel)
  exact ⟨t, h1, h2⟩

/-- `C95_dump` applies to it. -/
example : ∃ (t : Tree Nat) (file : List Nat) (l : List (Node ⊕ Entry Nat)), run Ex.S Ex.Z ops (empty 2) = .ok t ∧ dumpJson t = .ok file ∧ IsJson file (.arr (l.map describe)) ∧
    l.Perm (t.nodes.map .inl ++ t.entries.map .inr) := by
  obtain ⟨t, h1, h2⟩ := reach
  obtain ⟨file, l, a, b, c, _⟩ := C95_dump (by decide) h2
  exact ⟨t, file, l, h1, a, b, c⟩

example : (Ex.tree ops).entries.length = 12 ∧ (Ex.tree ops).nodes.length = 3 ∧ height (Ex.tree ops) = 2 := by decide +kernel

/-- The files of an empty index and of one with a single entry. -/
example : dumpJson (empty 2 : Tree Nat) = .ok (bytesOf "[\n]\n") := by decide +kernel
example : dumpJson (Ex.tree [.insert 7 [0, 12] [3, 15]]) = .ok (bytesOf ("[\n{\n\"type\": \"Node\",\n\"start_coords\": [0, 12],\n\"end_coords\": [3, 15],\n" ++
    "\"shape\": [3, 3],\n\"level\": 0\n},\n{\n\"type\": \"Entry\",\n\"start_coords\": [0, 12],\n\"end_coords\": [3, 15],\n\"shape\": [3, 3]\n}\n]\n")) := by
  decide +kernel

/-- Something that is not JSON: a number that begins with 0. -/
example : ∀ k, ¬ Text k (.num 7) (bytesOf "07") := by
  intro k h
  have h' : IsDecimal (bytesOf "07") 7 := by cases k <;> exact h
  exact h'.2.2.2 (by decide) (by decide)

end Ex95

end Verif.Tree
