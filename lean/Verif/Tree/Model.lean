import Verif.Tree.BBox
/-
Model of `RStarTree<std::size_t, dims, PayloadT>` (eisvogel/core/impl/RStarTree.hh 189-369, RStarTree.hxx 466-1469).

The two memory pools are lists; a slot is a position.  This is exact for the way the tree uses its pools: it only ever asks
for new slots and resets, and such a pool hands out 0, 1, 2, ... and iterates in that order (`pool_sequential`,
Verif/Tree/PoolSeq.lean).  `INVALID_SLOT` is `none`; an access to a slot that was never handed out is `ub`.

`std::sort` and `std::partial_sort` order equal elements arbitrarily, so they are a parameter (`Sorter`) of the model.
-/
namespace Verif.Tree
open Verif

variable {P : Type}

/-- RStarTree.hh 193-194. -/
abbrev MAXN : Nat := 10
abbrev MINN : Nat := 2

/-- The library sort: any function that permutes. (For `std::sort` the result is also sorted; nothing below needs that.) -/
structure Sorter where
  run : {α : Type} → (α → α → Bool) → List α → List α
  perm : ∀ {α : Type} (lt : α → α → Bool) (l : List α), (run lt l).Perm l

/-- RStarTree.hh 210-226. `ch` are the first `num_children` elements of `child_slots`. -/
structure Node where
  box : Box
  level : Nat
  ch : List Nat
deriving Repr, DecidableEq

/-- RStarTree.hh 201-208. -/
structure Entry (P : Type) where
  box : Box
  payload : P
deriving Repr, DecidableEq

/-- RStarTree.hh 357-369. -/
structure Tree (P : Type) where
  dims : Nat
  nodes : List Node
  entries : List (Entry P)
  root : Option Nat
  last : Option Nat
deriving Repr, DecidableEq

/-- RStarTree.hxx 481-484. -/
def empty (dims : Nat) : Tree P := ⟨dims, [], [], none, none⟩

/-- `m_nodes[slot]`. -/
def getNode (t : Tree P) (i : Nat) : Res Node :=
  match t.nodes[i]? with
  | some n => .ok n
  | none => .ub

def setNode (t : Tree P) (i : Nat) (n : Node) : Tree P := { t with nodes := t.nodes.set i n }

/-- `m_entries[slot]`. -/
def getEntry (t : Tree P) (i : Nat) : Res (Entry P) :=
  match t.entries[i]? with
  | some n => .ok n
  | none => .ub

/-- RStarTree.hxx 808-818 `get_bbox`. -/
def getBox (t : Tree P) (slot level : Nat) : Res Box :=
  if level = 0 then (getEntry t slot).bind fun e => .ok e.box else (getNode t slot).bind fun n => .ok n.box

/-- The boxes of several slots. -/
def boxesOf (t : Tree P) (level : Nat) : List Nat → Res (List Box)
  | [] => .ok []
  | c :: cs => (getBox t c level).bind fun b => (boxesOf t level cs).bind fun bs => .ok (b :: bs)

/-- RStarTree.hxx 474-479 `add_child`. -/
def addChild (n : Node) (c : Nat) : Res Node :=
  (Res.assert (decide (n.ch.length ≤ MAXN))).bind fun _ => .ok { n with ch := n.ch ++ [c] }

def addChildren (n : Node) : List Nat → Res Node
  | [] => .ok n
  | c :: cs => (addChild n c).bind fun n1 => addChildren n1 cs

/-- RStarTree.hxx 820-831 `recalculate_bbox`. -/
def recalc (t : Tree P) (i : Nat) : Res (Tree P) :=
  (getNode t i).bind fun n =>
  (boxesOf t n.level n.ch).bind fun bs =>
  .ok (setNode t i { n with box := bs.foldl Box.extend (Box.reset t.dims) })

/-- RStarTree.hxx 510-533 `build_new_node`. -/
def buildNode (t : Tree P) (level : Nat) (cs : List Nat) : Res (Tree P × Nat) :=
  (addChildren ⟨Box.reset t.dims, level, []⟩ cs).bind fun n => .ok ({ t with nodes := t.nodes ++ [n] }, t.nodes.length)

/-- RStarTree.hxx 486-508 `build_new_entry`. -/
def buildEntry (t : Tree P) (e : Entry P) : Tree P × Nat := ({ t with entries := t.entries ++ [e] }, t.entries.length)

/-! ### Choice of the subtree -/

/-- `std::min_element`: the first element no later one is strictly better than. -/
def minElem {α : Type} (better : α → α → Bool) : α → List α → α
  | best, [] => best
  | best, x :: xs => minElem better (if better x best then x else best) xs

/-- RStarTree.hxx 793-801 `node_volume_enlargement`. -/
def volEnl (b toAdd : Box) : Nat := wsub (b.copy.extend toAdd).volume b.volume

/-- RStarTree.hxx 766-791 `child_overlap_enlargement`. -/
def overlapEnl (cs : List (Nat × Box)) (c : Nat × Box) (toAdd : Box) : Nat :=
  cs.foldl (fun acc o => if o.1 = c.1 then acc else
    wadd acc (wsub ((c.2.copy.extend toAdd).overlapVolume o.2) (c.2.overlapVolume o.2))) 0

/-- RStarTree.hxx 709-727, comparison of `find_min_overlap_enlargement_child`. -/
def betterOverlap (cs : List (Nat × Box)) (toAdd : Box) (a b : Nat × Box) : Bool :=
  let ea := overlapEnl cs a toAdd
  let eb := overlapEnl cs b toAdd
  if ea < eb then true else if ea = eb then decide (volEnl a.2 toAdd < volEnl b.2 toAdd) else false

/-- RStarTree.hxx 744-759, comparison of `find_min_volume_enlargement_child`. -/
def betterVolume (toAdd : Box) (a b : Nat × Box) : Bool :=
  let ea := volEnl a.2 toAdd
  let eb := volEnl b.2 toAdd
  if ea < eb then true else if ea = eb then decide (a.2.volume < b.2.volume) else false

/-- RStarTree.hxx 674-764 `choose_subtree` with the two searches it calls. -/
def chooseSubtree (t : Tree P) (slot lvl start : Nat) : Res Nat :=
  (getNode t start).bind fun n =>
  (getBox t slot lvl).bind fun b =>
  (Res.assert (decide (0 < n.ch.length))).bind fun _ =>
  (Res.assert (decide (0 < n.level))).bind fun _ =>
  match n.ch with
  | [] => .ub
  | c0 :: _ =>
    (getNode t c0).bind fun child =>
    (boxesOf t n.level n.ch).bind fun bs =>
    match n.ch.zip bs with
    | [] => .ub
    | p :: ps =>
      if child.level = 0 then .ok (minElem (betterOverlap (p :: ps) b) p ps).1
      else .ok (minElem (betterVolume b) p ps).1

/-! ### Splitting -/

/-- The box of a child during `split`, by its slot. -/
def boxAt (cs : List (Nat × Box)) (c : Nat) : Box :=
  match cs.find? (fun p => p.1 = c) with
  | some p => p.2
  | none => ⟨[], [], []⟩

inductive Edge where
  | lower
  | upper
deriving Repr, DecidableEq

/-- RStarTree.hxx 974-987: sort the children along an axis by their lower or upper edge. -/
def sortEdge (S : Sorter) (bx : Nat → Box) (axis : Nat) : Edge → List Nat → List Nat
  | .lower, l => S.run (fun a b => decide ((bx a).start.getD axis 0 < (bx b).start.getD axis 0)) l
  | .upper, l => S.run (fun a b => decide ((bx a).stop.getD axis 0 < (bx b).stop.getD axis 0)) l

/-- RStarTree.hxx 960-967. -/
structure AxisBest where
  margin : Nat
  minOverlap : Nat
  minVolume : Nat
  edge : Edge
  split : Nat

/-- RStarTree.hxx 989-1017: the loop over the 8 possible split points of the sorted children. -/
def trySplits (dims : Nat) (bx : Nat → Box) (edge : Edge) (l : List Nat) (a : AxisBest) : AxisBest :=
  (List.range (MAXN + 2 - 2 * MINN)).foldl (fun a cur =>
    let b1 := ((l.take (MINN + cur)).map bx).foldl Box.extend (Box.reset dims)
    let b2 := ((l.drop (MINN + cur)).map bx).foldl Box.extend (Box.reset dims)
    let margin := wadd a.margin (wadd b1.margin b2.margin)
    let volume := wadd b1.volume b2.volume
    let overlap := b1.overlapVolume b2
    if overlap < a.minOverlap ∨ (overlap = a.minOverlap ∧ volume < a.minVolume) then
      { margin, minOverlap := overlap, minVolume := volume, edge, split := cur }
    else { a with margin }) a

/-- RStarTree.hxx 949-954. -/
structure SplitBest where
  axis : Nat
  edge : Edge
  split : Nat
  margin : Nat

/-- RStarTree.hxx 1019-1026: the axis with the smallest total margin wins. -/
def pickAxis (best : SplitBest) (axis : Nat) (a : AxisBest) : SplitBest :=
  if a.margin < best.margin then ⟨axis, a.edge, a.split, a.margin⟩ else best

/-- RStarTree.hxx 960-967: the search along an axis starts with these values. -/
def axisStart : AxisBest := ⟨0, U64 - 1, U64 - 1, .lower, 0⟩

/-- RStarTree.hxx 958-1027: one turn of the loop over the axes; the children are re-sorted in place each time. -/
def axisStep (S : Sorter) (dims : Nat) (bx : Nat → Box) (s : List Nat × SplitBest) (axis : Nat) : List Nat × SplitBest :=
  (sortEdge S bx axis .upper (sortEdge S bx axis .lower s.1),
   pickAxis s.2 axis (trySplits dims bx .upper (sortEdge S bx axis .upper (sortEdge S bx axis .lower s.1))
     (trySplits dims bx .lower (sortEdge S bx axis .lower s.1) axisStart)))

/-- RStarTree.hxx 1029-1048: re-sort along the chosen axis and edge; the children are still sorted along the upper edge of the last
    axis. -/
def finalOrder (S : Sorter) (dims : Nat) (bx : Nat → Box) (l : List Nat) (axis : Nat) : Edge → List Nat
  | .lower => sortEdge S bx axis .lower l
  | .upper => if axis ≠ dims - 1 then sortEdge S bx axis .upper l else l

/-- RStarTree.hxx 942-1048: the final order of the children and the number that stay in the old node. -/
def chooseSplit (S : Sorter) (dims : Nat) (cs : List (Nat × Box)) (ch : List Nat) : List Nat × Nat :=
  let r := (List.range dims).foldl (axisStep S dims (boxAt cs)) (ch, ⟨0, .lower, 0, U64 - 1⟩)
  (finalOrder S dims (boxAt cs) r.1 r.2.axis r.2.edge, MINN + r.2.split)

/-- RStarTree.hxx 930-1067 `split`. -/
def split (S : Sorter) (t : Tree P) (i : Nat) : Res (Tree P × Nat) :=
  (getNode t i).bind fun n =>
  (Res.assert (decide (n.ch.length = MAXN + 1))).bind fun _ =>
  (boxesOf t n.level n.ch).bind fun bs =>
  let r := chooseSplit S t.dims (n.ch.zip bs) n.ch
  let t1 := setNode t i { n with ch := r.1.take r.2 }
  (buildNode t1 n.level (r.1.drop r.2)).bind fun r2 =>
  (recalc r2.1 r2.2).bind fun t3 =>
  (recalc t3 i).bind fun t4 =>
  .ok (t4, r2.2)

/-! ### Insertion -/

/-- RStarTree.hxx 618-672 `insert_slot`, with the handling of an overfull node as a parameter.
    `fuel` bounds the recursion depth; the recursion descends one level at a time. -/
def insertWith (ovf : Tree P → Nat → Res (Tree P × Option Nat)) (slot lvl : Nat) :
    Nat → Tree P → Nat → Res (Tree P × Option Nat)
  | 0, _, _ => .diverge
  | fuel + 1, t, start =>
    (getNode t start).bind fun n =>
    (Res.assert (decide (lvl ≤ n.level))).bind fun _ =>
    (getBox t slot lvl).bind fun b =>
    let t1 := setNode t start { n with box := n.box.extend b }
    let finish (t : Tree P) : Res (Tree P × Option Nat) :=
      (getNode t start).bind fun n =>
      if n.ch.length > MAXN then ovf t start else .ok (t, none)
    if n.level = lvl then
      (getNode t1 start).bind fun n1 =>
      (addChild n1 slot).bind fun n2 => finish (setNode t1 start n2)
    else
      (chooseSubtree t1 slot lvl start).bind fun c =>
      (insertWith ovf slot lvl fuel t1 c).bind fun r =>
      match r.2 with
      | none => .ok (r.1, none)
      | some new =>
        (getNode r.1 start).bind fun n1 =>
        (addChild n1 new).bind fun n2 => finish (setNode r.1 start n2)

/-- RStarTree.hxx 853-886: the part of `overflow_treatment` that splits. -/
def splitTreat (S : Sorter) (t : Tree P) (i : Nat) : Res (Tree P × Option Nat) :=
  (split S t i).bind fun r =>
  if t.root = some i then
    (getNode r.1 i).bind fun n =>
    (buildNode r.1 (n.level + 1) [i, r.2]).bind fun r2 =>
    (recalc r2.1 r2.2).bind fun t3 =>
    .ok ({ t3 with root := some r2.2 }, none)
  else .ok (r.1, some r.2)

/-- RStarTree.hxx 833-887 `overflow_treatment(node, false)`: always splits. -/
def overflowF (S : Sorter) (t : Tree P) (i : Nat) : Res (Tree P × Option Nat) :=
  (getNode t i).bind fun n =>
  (Res.assert (decide (n.ch.length = MAXN + 1))).bind fun _ => splitTreat S t i

/-- RStarTree.hxx 618-672 `insert_slot(.., first_insert = false)`. -/
def insertF (S : Sorter) (slot lvl fuel : Nat) (t : Tree P) (start : Nat) : Res (Tree P × Option Nat) :=
  insertWith (overflowF S) slot lvl fuel t start

/-- The level of the root, used as a bound on the recursion depth. -/
def height (t : Tree P) : Nat :=
  match t.root with
  | some r => match t.nodes[r]? with
    | some n => n.level + 1
    | none => 0
  | none => 0

/-- RStarTree.hxx 923-927: re-insert the removed children one after the other from the current root. -/
def reinsertLoop (S : Sorter) (lvl : Nat) : List Nat → Tree P → Res (Tree P)
  | [], t => .ok t
  | c :: cs, t =>
    match t.root with
    | none => .ub
    | some r => (insertF S c lvl (height t) t r).bind fun x => reinsertLoop S lvl cs x.1

/-- RStarTree.hxx 898: `p = max(REINSERT_P_FRAC * 11, 1)` = 3. -/
abbrev REINS : Nat := 3

/-- RStarTree.hxx 889-928 `reinsert`. -/
def reinsert (S : Sorter) (t : Tree P) (i : Nat) : Res (Tree P) :=
  (getNode t i).bind fun n =>
  (Res.assert (decide (n.ch.length = MAXN + 1))).bind fun _ =>
  (boxesOf t n.level n.ch).bind fun bs =>
  let bx := boxAt (n.ch.zip bs)
  let c := n.box.center
  let l := S.run (fun a b => decide ((bx a).centerDist c < (bx b).centerDist c)) n.ch
  (recalc (setNode t i { n with ch := l.take (MAXN + 1 - REINS) }) i).bind fun t1 =>
  reinsertLoop S n.level (l.drop (MAXN + 1 - REINS)) t1

/-- RStarTree.hxx 833-887 `overflow_treatment(node, true)`. -/
def overflowT (S : Sorter) (t : Tree P) (i : Nat) : Res (Tree P × Option Nat) :=
  (getNode t i).bind fun n =>
  (Res.assert (decide (n.ch.length = MAXN + 1))).bind fun _ =>
  if t.root ≠ some i then (reinsert S t i).bind fun t1 => .ok (t1, none)
  else splitTreat S t i

/-- RStarTree.hxx 618-672 `insert_slot(.., first_insert = true)`. -/
def insertT (S : Sorter) (slot lvl fuel : Nat) (t : Tree P) (start : Nat) : Res (Tree P × Option Nat) :=
  insertWith (overflowT S) slot lvl fuel t start

/-- RStarTree.hxx 535-559 `InsertElement`. -/
def insertElement (S : Sorter) (t : Tree P) (elem : P) (start stop : List Nat) : Res (Tree P) :=
  let (t1, slot) := buildEntry t ⟨Box.mk' start stop, elem⟩
  match t1.root with
  | none => (buildNode t1 0 [slot]).bind fun r => recalc { r.1 with root := some r.2 } r.2
  | some r => (insertT S slot 0 (height t1) t1 r).bind fun x => .ok x.1

/-! ### Updating the box of an entry -/

/-- RStarTree.hxx 579-594: first child entry that contains the point. -/
def firstContaining (t : Tree P) (p : List Nat) : List Nat → Res (Option Nat)
  | [] => .ok none
  | c :: cs => (getEntry t c).bind fun e => if e.box.contains p then .ok (some c) else firstContaining t p cs

/-- RStarTree.hxx 599-611: `f` is the search below a child. -/
def updateKids (f : Tree P → Nat → Res (Tree P × Bool)) : Tree P → List Nat → Res (Tree P × Bool)
  | t, [] => .ok (t, false)
  | t, c :: cs =>
    (f t c).bind fun r =>
    if r.2 then (recalc r.1 c).bind fun t2 => .ok (t2, true)
    else updateKids f r.1 cs

/-- RStarTree.hxx 571-616 `search_entry_update_bbox`. -/
def updateRec (p lo hi : List Nat) : Nat → Tree P → Nat → Res (Tree P × Bool)
  | 0, _, _ => .diverge
  | fuel + 1, t, i =>
    (getNode t i).bind fun n =>
    if n.level = 0 then
      (firstContaining t p n.ch).bind fun o =>
      match o with
      | some c => (getEntry t c).bind fun e =>
          .ok ({ t with entries := t.entries.set c { e with box := Box.mk' lo hi } }, true)
      | none => .ok (t, false)
    else updateKids (updateRec p lo hi fuel) t n.ch

/-- RStarTree.hxx 561-569 `UpdateBoundingBox`. -/
def updateBoundingBox (t : Tree P) (p lo hi : List Nat) : Res (Tree P) :=
  match t.root with
  | none => .ub
  | some r => (updateRec p lo hi (height t) t r).bind fun x => if x.2 then recalc x.1 r else .ok x.1

/-! ### Queries -/

/-- RStarTree.hxx 1112-1122: `f` is the search below a child. -/
def searchKids (t : Tree P) (p : List Nat) (f : Nat → Res (Option Nat)) : List Nat → Res (Option Nat)
  | [] => .ok none
  | c :: cs =>
    (getNode t c).bind fun n =>
    if n.box.contains p then
      (f c).bind fun o =>
      match o with
      | some e => .ok (some e)
      | none => searchKids t p f cs
    else searchKids t p f cs

/-- RStarTree.hxx 1091-1127 `search_entry`. -/
def searchRec (t : Tree P) (p : List Nat) : Nat → Nat → Res (Option Nat)
  | 0, _ => .diverge
  | fuel + 1, i =>
    (getNode t i).bind fun n => if n.level = 0 then firstContaining t p n.ch else searchKids t p (searchRec t p fuel) n.ch

/-- RStarTree.hxx 1081-1088: search from the root and remember the hit. -/
def searchFull (t : Tree P) (p : List Nat) : Res (Tree P × Option P) :=
  match t.root with
  | none => .ub          -- `m_nodes[INVALID_SLOT]`
  | some r =>
    (searchRec t p (height t) r).bind fun o =>
    match o with
    | none => .ok (t, none)
    | some e => (getEntry t e).bind fun en => .ok ({ t with last := some e }, some en.payload)

/-- RStarTree.hxx 1069-1089 `Search(coords)`: the payload pointed to, `none` for the null pointer. -/
def searchPoint (t : Tree P) (p : List Nat) : Res (Tree P × Option P) :=
  match t.last with
  | some l => (getEntry t l).bind fun e =>
      if e.box.contains p then .ok (t, some e.payload) else searchFull t p
  | none => searchFull t p

/-- RStarTree.hxx 1152-1160. -/
def overlapping (t : Tree P) (b : Box) : List Nat → Res (List P)
  | [] => .ok []
  | c :: cs => (getEntry t c).bind fun e => (overlapping t b cs).bind fun r =>
      .ok (if b.overlaps e.box then e.payload :: r else r)

/-- RStarTree.hxx 1163-1172: `f` is the search below a child. -/
def regionKids (t : Tree P) (b : Box) (f : Nat → Res (List P)) : List Nat → Res (List P)
  | [] => .ok []
  | c :: cs =>
    (getNode t c).bind fun n =>
    (if b.overlaps n.box then f c else .ok []).bind fun r =>
    (regionKids t b f cs).bind fun rs => .ok (r ++ rs)

/-- RStarTree.hxx 1144-1176 `search_overlapping_entry_and_add`. -/
def regionRec (t : Tree P) (b : Box) : Nat → Nat → Res (List P)
  | 0, _ => .diverge
  | fuel + 1, i => (getNode t i).bind fun n => if n.level = 0 then overlapping t b n.ch else regionKids t b (regionRec t b fuel) n.ch

/-- RStarTree.hxx 1129-1142 `Search(start, end)`. -/
def searchRegion (t : Tree P) (lo hi : List Nat) : Res (List P) :=
  match t.root with
  | none => .ok []
  | some r => regionRec t (Box.mk' lo hi) (height t) r

/-- RStarTree.hxx 1178-1199 `Apply`, `GetAllEntries`. -/
def getAllEntries (t : Tree P) : List P := t.entries.map Entry.payload

/-- RStarTree.hxx 1201-1210 `GetBoundingBox`. -/
def getBoundingBox (t : Tree P) : Res Box :=
  match t.root with
  | none => .ok (Box.mk' (List.replicate t.dims 0) (List.replicate t.dims 0))
  | some r => (getNode t r).bind fun n => .ok n.box.copy

/-- RStarTree.hxx 1306-1312 `Clear`. -/
def clear (t : Tree P) : Tree P := empty t.dims

/-- RStarTree.hxx 1314-1317 `Empty`. -/
def isEmpty (t : Tree P) : Bool := t.root.isNone

/-! ### Bulk rebuilding -/

/-- RStarTree.hxx 1452-1468: consecutive slabs of `eps` elements. -/
def slabs {α : Type} (eps : Nat) : Nat → List α → Option (List (List α))
  | _, [] => some []
  | 0, _ :: _ => none
  | fuel + 1, l => (slabs eps fuel (l.drop eps)).map (l.take eps :: ·)

/-- `std::ceil(std::pow((float)num_nodes, (cur_dim - 1.0f) / cur_dim)) * MAX_NODESIZE` for `cur_dim > 1` (RStarTree.hxx 1444): a
    parameter of the model. For `cur_dim = 1` the power is 1. The result is at least `MAX_NODESIZE` when there are nodes. -/
structure SlabSize where
  run : Nat → Nat → Nat
  ge : ∀ n d, 0 < n → MAXN ≤ run n d

/-- RStarTree.hxx 1452-1468: the recursive call `f` for every slab. -/
def strAll {α : Type} (f : List α → Res (List (List α))) : List (List α) → Res (List (List α))
  | [] => .ok []
  | s :: ss => (f s).bind fun g => (strAll f ss).bind fun gs => .ok (g ++ gs)

/-- RStarTree.hxx 1411-1469 `sort_STR_and_apply(_dimension)`: the groups for which `worker` is called, in order. `remaining` is the
    number of axes from `axis` on (at least 1). Simplification: the groups are computed before the workers run; the workers only append
    to the pools, so the keys used for sorting are the same. -/
def strGroups {α : Type} (S : Sorter) (Z : SlabSize) (getBox : α → Box) : Nat → Nat → List α → Res (List (List α))
  | _, 0, _ => .ok []
  | axis, remaining + 1, l =>
    let l1 := S.run (fun a b => decide ((getBox a).copy.center.getD axis 0 < (getBox b).copy.center.getD axis 0)) l
    let numNodes := (l1.length + MAXN - 1) / MAXN
    let eps := if remaining = 0 then MAXN else Z.run numNodes (remaining + 1)
    (Res.ofLoop (slabs eps l1.length l1)).bind fun ss =>
    if remaining = 0 then
      (Res.assert (ss.all fun s => decide (s.length ≤ MAXN))).bind fun _ => .ok ss
    else strAll (strGroups S Z getBox (axis + 1) remaining) ss

/-- RStarTree.hxx 1345-1359: build the leaf nodes. -/
def addLeaves : List (List (Entry P)) → Tree P → Res (Tree P × List Nat)
  | [], t => .ok (t, [])
  | g :: gs, t =>
    let slots := (List.range g.length).map (t.entries.length + ·)
    (buildNode { t with entries := t.entries ++ g } 0 slots).bind fun r =>
    (recalc r.1 r.2).bind fun t2 =>
    (addLeaves gs t2).bind fun x => .ok (x.1, r.2 :: x.2)

/-- RStarTree.hxx 1374-1384: build one layer of internal nodes. -/
def addNodes (level : Nat) : List (List Nat) → Tree P → Res (Tree P × List Nat)
  | [], t => .ok (t, [])
  | g :: gs, t =>
    (buildNode t level g).bind fun r =>
    (recalc r.1 r.2).bind fun t2 =>
    (addNodes level gs t2).bind fun x => .ok (x.1, r.2 :: x.2)

/-- The box of a node slot as used by the comparison in lines 1370-1372. -/
def nodeBoxD (t : Tree P) (i : Nat) : Box :=
  match t.nodes[i]? with
  | some n => n.box
  | none => ⟨[], [], []⟩

/-- RStarTree.hxx 1364-1401: the layers above the leaves. -/
def strLayers (S : Sorter) (Z : SlabSize) : Nat → Nat → Tree P → List Nat → Res (Tree P × List Nat)
  | 0, _, _, _ => .diverge
  | fuel + 1, level, t, slots =>
    if 1 < slots.length then
      (strGroups S Z (nodeBoxD t) 0 t.dims slots).bind fun gs =>
      (addNodes level gs t).bind fun x => strLayers S Z fuel (level + 1) x.1 x.2
    else .ok (t, slots)

/-- RStarTree.hxx 1319-1409 `RebuildSTR`. -/
def rebuildSTR (S : Sorter) (Z : SlabSize) (t : Tree P) : Res (Tree P) :=
  let es := t.entries
  let t0 : Tree P := { t with root := none, nodes := [], entries := [], last := none }
  (strGroups S Z Entry.box 0 t.dims es).bind fun gs =>
  (addLeaves gs t0).bind fun x =>
  (strLayers S Z (x.2.length + 1) 1 x.1 x.2).bind fun y =>
  match y.2 with
  | [r] => .ok { y.1 with root := some r }
  | _ => .abort

end Verif.Tree
