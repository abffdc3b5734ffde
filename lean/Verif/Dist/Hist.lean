import Verif.Dist.LibMove
import Verif.Dist.LibShape
import Verif.Dist.LibLoop
/-
Histories of the chunk library: the calls, and what they mean if a library is simply a list of boxes with values.
-/
namespace Verif.Dist
open Verif Verif.ND Verif.Tree Verif.Bytes Verif.Stream Verif.NullSup

variable {C : Cfg} {S : Sorter} {Z : SlabSize}

/-! ### The program -/

/-- The queries about the region covered by the library. -/
inductive Query where
  | start
  | stop
  | shape
  | volume

/-- The calls.  `query` stands for `GetStartInd`, `GetEndInd`, `GetShape` and `GetVolume`; `loop` and `loopAll` for
    `index_loop_over_elements(start, end, worker)` and `index_loop_over_elements(worker)`, which return the calls of the worker.  `open` and `close` are the construction and the destruction of a `ChunkLibrary`; `fill` is `FillArray` into the view `hd` at
    position `st` of an array of shape `P` with buffer `buf`. -/
inductive LOp where
  | query (q : Query)
  | loop (lo hi : List Nat)
  | loopAll
  | open (dir : Nat) (init : List Nat)
  | close
  | register (uuid : List Nat) (a : Arr) (start stop : List Nat) (overlap : Nat) (opt : Bool)
  | append (start : List Nat) (s : Arr)
  | get (i : List Nat)
  | fill (P st : List Nat) (hd : Hdr) (buf : List Nat) (lo hi out : List Nat)
  | flush
  | swap (p q : Nat)
  | move (dir : Nat)
  | clear
  | import (dir : Nat) (move : Bool)

/-- What a call returns. -/
inductive Out where
  | unit
  | vec (v : List Nat)
  | buf (b : List Nat)
  | ind (v : List Nat)
  | num (n : Nat)
  | calls (l : List (List Nat × List Nat))

/-- The library object, if there is one, and the files. -/
structure MState where
  lib : Option Lib
  fs : FS

/-- One call. Calling a method without an object is undefined. -/
def MState.step (C : Cfg) (S : Sorter) (st : MState) : LOp → Res (MState × Out)
  | .query q =>
    match st.lib with
    | none => .ub
    | some l =>
      match q with
      | .start => (l.idx.getStart C).bind fun r => .ok (⟨some ⟨l.cc, r.1⟩, st.fs⟩, .ind r.2)
      | .stop => (l.idx.getStop C).bind fun r => .ok (⟨some ⟨l.cc, r.1⟩, st.fs⟩, .ind r.2)
      | .shape => (l.idx.getShape C).bind fun r => .ok (⟨some ⟨l.cc, r.1⟩, st.fs⟩, .ind r.2)
      | .volume => (l.idx.getVolume C).bind fun r => .ok (⟨some ⟨l.cc, r.1⟩, st.fs⟩, .num r.2)
  | .loop lo hi =>
    match st.lib with
    | none => .ub
    | some l => (l.indexLoopRange C st.fs lo hi).bind fun q => .ok (⟨some q.1, q.2.1⟩, .calls q.2.2)
  | .loopAll =>
    match st.lib with
    | none => .ub
    | some l => (l.indexLoopAll C st.fs).bind fun q => .ok (⟨some q.1, q.2.1⟩, .calls q.2.2)
  | .open dir init => (Lib.open C S st.fs dir init).bind fun l => .ok (⟨some l, st.fs⟩, .unit)
  | .close =>
    match st.lib with
    | none => .ub
    | some l => (l.destroy C st.fs).bind fun fs => .ok (⟨none, fs⟩, .unit)
  | .register uuid a start stop overlap opt =>
    match st.lib with
    | none => .ub
    | some l => (l.register C S st.fs uuid a start stop overlap opt).bind fun q => .ok (⟨some q.1, q.2⟩, .unit)
  | .append start s =>
    match st.lib with
    | none => .ub
    | some l => (l.append C 0 st.fs start s).bind fun q => .ok (⟨some q.1, q.2⟩, .unit)
  | .get i =>
    match st.lib with
    | none => .ub
    | some l => (l.get C st.fs i).bind fun q => .ok (⟨some q.1, q.2.1⟩, .vec q.2.2)
  | .fill _ _ hd buf lo hi out =>
    match st.lib with
    | none => .ub
    | some l => (l.fillArray C st.fs hd buf lo hi out).bind fun q => .ok (⟨some q.1, q.2.1⟩, .buf q.2.2)
  | .flush =>
    match st.lib with
    | none => .ub
    | some l => (l.flush C st.fs).bind fun q => .ok (⟨some q.1, q.2⟩, .unit)
  | .swap p q =>
    match st.lib with
    | none => .ub
    | some l => (l.swapAxes C S st.fs p q).bind fun q => .ok (⟨some q.1, q.2⟩, .unit)
  | .move dir =>
    match st.lib with
    | none => .ub
    | some l => (l.move C st.fs dir).bind fun q => .ok (⟨some q.1, q.2⟩, .unit)
  | .clear =>
    match st.lib with
    | none => .ub
    | some l => (l.clear C st.fs).bind fun q => .ok (⟨some q.1, q.2⟩, .unit)
  | .import dir move =>
    match st.lib with
    | none => .ub
    | some l => (l.import C S st.fs dir move).bind fun q => .ok (⟨some q.1, q.2⟩, .unit)

/-- A sequence of calls. -/
def MState.run (C : Cfg) (S : Sorter) : MState → List LOp → Res (MState × List Out)
  | st, [] => .ok (st, [])
  | st, op :: ops => (st.step C S op).bind fun r => (r.1.run C S ops).bind fun r' => .ok (r'.1, r.2 :: r'.2)

/-! ### Specification -/

/-- A chunk as the user knows it: identifier, name of its file (none if it is stored as "all zero"), the box of global indices `[start, stop)` it
    covers, the width of its padding, and the vector at each global index of the box. -/
structure Piece where
  id : Nat
  file : List Nat
  start : List Nat
  stop : List Nat
  overlap : Nat
  val : List Nat → List Nat

/-- The shape of the stored array; a chunk stored as "all zero" is recreated without padding. -/
def Piece.shape (p : Piece) : List Nat := (subVec p.stop p.start).map (· + 2 * if p.file = [] then 0 else p.overlap)

/-- The chunk is not a padded chunk stored as "all zero": element access works (see `C30_padded_null_aborts` for the other case). -/
def Piece.Plain (p : Piece) : Prop := p.file = [] → p.overlap = 0

/-- An open library: its directory, the next identifier, and its chunks. -/
structure LibSpec where
  dir : Nat
  next : Nat
  pieces : List Piece

/-- The open library, the closed libraries by directory, and names of chunk files that may exist in each directory. -/
structure World where
  cur : Option LibSpec
  disk : Nat → Option (List Piece)
  names : Nat → List Nat → Prop

/-- The vector that is returned. -/
def elemOr : Res (List Nat) → List Nat
  | .ok v => v
  | _ => []

/-- The chunk made of the array `a`, placed at `[start, stop)`. -/
def newPiece (C : Cfg) (id : Nat) (uuid : List Nat) (a : Arr) (start stop : List Nat) (overlap : Nat) (opt : Bool) : Piece :=
  ⟨id, if opt && a.null then [] else uuid, start, stop, overlap, fun i => elemOr (a.get C.vd ((subVec i start).map (· + overlap)))⟩

/-- The chunk with the slice `s` behind it. -/
def Piece.extend (C : Cfg) (p : Piece) (s : Arr) : Piece :=
  { p with
    stop := p.stop.set 0 (p.stop.getD 0 0 + s.shape.getD 0 0)
    val := fun i => if i.getD 0 0 < p.stop.getD 0 0 then p.val i else elemOr (s.get C.vd (subVec i (p.start.set 0 (p.stop.getD 0 0)))) }

/-- The chunk with two axes exchanged. -/
def Piece.swap (p : Piece) (x y : Nat) : Piece :=
  { p with start := swapAt p.start x y, stop := swapAt p.stop x y, val := fun i => p.val (swapAt i x y) }

/-- The chunks with identifiers from `n` on. -/
def renumbered (n : Nat) (ps : List Piece) : List Piece := ps.zipIdx.map fun q => { q.1 with id := n + q.2 }

def upd {α : Type} (f : Nat → α) (d : Nat) (x : α) : Nat → α := fun d' => if d' = d then x else f d'

/-- The effect of a call. -/
def World.next (C : Cfg) (w : World) (op : LOp) : World :=
  match op, w.cur with
  | .open dir _, _ => { w with cur := some ⟨dir, 0, (w.disk dir).getD []⟩, disk := upd w.disk dir none }
  | .close, some l => { w with cur := none, disk := upd w.disk l.dir (some l.pieces) }
  | .register uuid a start stop overlap opt, some l =>
    { w with
      cur := some ⟨l.dir, l.next + 1, l.pieces ++ [newPiece C l.next uuid a start stop overlap opt]⟩
      names := upd w.names l.dir fun n => w.names l.dir n ∨ n = uuid }
  | .append start s, some l =>
    { w with cur := some { l with pieces := l.pieces.map fun p => if start = p.start.set 0 (p.stop.getD 0 0) then p.extend C s else p } }
  | .swap x y, some l => { w with cur := some { l with pieces := l.pieces.map fun p => p.swap x y } }
  | .move dir, some l =>
    { w with
      cur := some { l with dir := dir }
      names := upd (upd w.names l.dir fun _ => False) dir fun n => w.names dir n ∨ w.names l.dir n }
  | .clear, some l => { w with cur := some { l with pieces := [] }, names := upd w.names l.dir fun _ => False }
  | .import dir move, some l =>
    { cur := some ⟨l.dir, l.next + ((w.disk dir).getD []).length, l.pieces ++ renumbered l.next ((w.disk dir).getD [])⟩
      disk := if move then upd w.disk dir none else w.disk
      names := upd (if move then upd w.names dir fun _ => False else w.names) l.dir fun n => w.names l.dir n ∨ w.names dir n }
  | _, _ => w

/-- Conditions for registering a chunk: an admissible array of the right shape, a box that no other chunk overlaps, a file name and an identifier
    that no other chunk has; a padded chunk of zeros is optimised away only if the library has no cache (as in `RebuildChunks`). -/
structure CanRegister (C : Cfg) (l : LibSpec) (uuid : List Nat) (a : Arr) (start stop : List Nat) (overlap : Nat) (opt : Bool) : Prop where
  arr : a.Ok C
  startLen : start.length = C.dims
  stopLen : stop.length = C.dims
  lt : ∀ d < C.dims, start.getD d 0 < stop.getD d 0 ∧ stop.getD d 0 < 2 ^ 62
  ovl : overlap < 2 ^ 61
  shape : a.shape = (subVec stop start).map (· + 2 * overlap)
  disj : ∀ p ∈ l.pieces, DisjointBox p.start p.stop start stop
  uuid : uuid ≠ [] ∧ uuid.length < 2 ^ 64 ∧ ∀ p ∈ l.pieces, p.file ≠ uuid
  pad : opt = true → a.null = true → overlap = 0 ∨ (C.size = 0 ∧ Fit C (subVec stop start))
  id : ∀ p ∈ l.pieces, p.id ≠ l.next
  next : l.next + 1 < 2 ^ 64

/-- Conditions for appending a slice directly behind the chunk `p`. -/
structure CanAppend (C : Cfg) (l : LibSpec) (k : Nat) (p : Piece) (start : List Nat) (s : Arr) : Prop where
  at_ : l.pieces[k]? = some p
  file : p.file ≠ []
  overlap : p.overlap = 0
  start : start = p.start.set 0 (p.stop.getD 0 0)
  arr : s.Ok C
  tail : s.shape.tail = (subVec p.stop p.start).tail
  fit : Fit C ((subVec p.stop p.start).set 0 ((subVec p.stop p.start).getD 0 0 + s.shape.getD 0 0))
  lt : p.stop.getD 0 0 + s.shape.getD 0 0 < 2 ^ 62
  disj : ∀ j p', l.pieces[j]? = some p' → j ≠ k → DisjointBox p'.start p'.stop p.start (p.stop.set 0 (p.stop.getD 0 0 + s.shape.getD 0 0))

/-- Conditions for importing the library in `dir`. -/
structure CanImport (w : World) (l : LibSpec) (dir : Nat) (ps : List Piece) : Prop where
  ne : dir ≠ l.dir
  disk : w.disk dir = some ps
  fresh : ∀ p ∈ l.pieces, p.id < l.next
  small : l.next + ps.length < 2 ^ 64
  disj : ∀ p ∈ l.pieces, ∀ p' ∈ ps, DisjointBox p.start p.stop p'.start p'.stop
  files : ∀ p ∈ l.pieces, p.file ≠ [] → ¬ w.names dir p.file

/-- Some chunk covers the index. -/
def Covered (ps : List Piece) (i : List Nat) : Prop := ∃ p ∈ ps, InBox p.start p.stop i

/-- `[lo, hi)` is the smallest box that contains all chunks. -/
structure IsHull (dims : Nat) (ps : List Piece) (lo hi : List Nat) : Prop where
  loLen : lo.length = dims
  hiLen : hi.length = dims
  encl : ∀ d < dims, ∀ p ∈ ps, lo.getD d 0 ≤ p.start.getD d 0 ∧ p.stop.getD d 0 ≤ hi.getD d 0
  loAtt : ∀ d < dims, ∃ p ∈ ps, p.start.getD d 0 = lo.getD d 0
  hiAtt : ∀ d < dims, ∃ p ∈ ps, p.stop.getD d 0 = hi.getD d 0

/-- The chunks leave no gap in the box. -/
def Filled (ps : List Piece) (lo hi : List Nat) : Prop := ∀ i, InBox lo hi i → Covered ps i

/-- Number of indices in the box. -/
def boxVolume (lo hi : List Nat) : Nat := (List.zipWith (fun x y => y - x) lo hi).foldr (· * ·) 1

/-- What the queries must return: of an empty library zeros; else the corners of the smallest box around the chunks, and, if the chunks fill this box,
    its extents and its number of elements, and zeros if they do not. -/
def ShapeAnswer (dims : Nat) (ps : List Piece) : Query → Out → Prop
  | .start, .ind v => (ps = [] → v = List.replicate dims 0) ∧ (ps ≠ [] → ∃ hi, IsHull dims ps v hi)
  | .stop, .ind v => (ps = [] → v = List.replicate dims 0) ∧ (ps ≠ [] → ∃ lo, IsHull dims ps lo v)
  | .shape, .ind v => (ps = [] → v = List.replicate dims 0) ∧
      (ps ≠ [] → ∃ lo hi, IsHull dims ps lo hi ∧ (Filled ps lo hi → v = subVec hi lo) ∧ (¬ Filled ps lo hi → v = List.replicate dims 0))
  | .volume, .num n => (ps = [] → n = 0) ∧
      (ps ≠ [] → ∃ lo hi, IsHull dims ps lo hi ∧ (Filled ps lo hi → n = boxVolume lo hi) ∧ (¬ Filled ps lo hi → n = 0))
  | _, _ => False

/-- What a loop over elements must do: call the worker once for every index in `R`, with the value of the chunk that covers it. -/
def LoopAnswer (ps : List Piece) (R : List Nat → Prop) (calls : List (List Nat × List Nat)) : Prop :=
  (calls.map Prod.fst).Nodup ∧ (∀ i, i ∈ calls.map Prod.fst ↔ R i) ∧ ∀ c ∈ calls, ∀ p ∈ ps, InBox p.start p.stop c.1 → VEq (p.val c.1) c.2

/-- The calls that are allowed. -/
def Legal (C : Cfg) (w : World) : LOp → Prop
  | .query _ => ∃ l, w.cur = some l ∧ ∀ lo hi, IsHull C.dims l.pieces lo hi → boxVolume lo hi < 2 ^ 64
  | .loop lo hi => ∃ l, w.cur = some l ∧ RegOkay C lo hi ∧ ∀ p ∈ l.pieces, p.Plain
  | .loopAll => ∃ l hi, w.cur = some l ∧ IsHull C.dims l.pieces (List.replicate C.dims 0) hi ∧ boxVolume (List.replicate C.dims 0) hi < 2 ^ 64 ∧
      Filled l.pieces (List.replicate C.dims 0) hi ∧ ∀ p ∈ l.pieces, p.Plain
  | .open dir _ => w.cur = none ∧ ((w.disk dir).getD []).length < 2 ^ 64
  | .close => ∃ l, w.cur = some l
  | .register uuid a start stop overlap opt => ∃ l, w.cur = some l ∧ CanRegister C l uuid a start stop overlap opt
  | .append start s => ∃ l k p, w.cur = some l ∧ CanAppend C l k p start s
  | .get i => ∃ l p, w.cur = some l ∧ p ∈ l.pieces ∧ InBox p.start p.stop i ∧ p.Plain
  | .fill P st hd buf lo hi out => ∃ l, w.cur = some l ∧ FillOk C P st hd lo hi out ∧ buf.length = volume C.vd P
  | .flush => ∃ l, w.cur = some l
  | .swap x y => ∃ l, w.cur = some l ∧ x < C.dims ∧ y < C.dims ∧ ∀ p ∈ l.pieces, Fit C (swapAt p.shape x y)
  | .move dir => ∃ l, w.cur = some l ∧ dir ≠ l.dir ∧ w.disk dir = none
  | .clear => ∃ l, w.cur = some l
  | .import dir _ => ∃ l ps, w.cur = some l ∧ CanImport w l dir ps

/-- What a call must return: `operator[]` the value of the chunk that covers the index; `FillArray` the values of all indices of the region that
    are covered by chunks, at their places, and everything else in the target array as before. -/
def Answer (C : Cfg) (w : World) : LOp → Out → Prop
  | .get i, .vec v => ∀ l, w.cur = some l → ∀ p ∈ l.pieces, InBox p.start p.stop i → VEq (p.val i) v
  | .get _, _ => False
  | .fill P st hd buf lo hi out, .buf b => b.length = buf.length ∧ ∀ l, w.cur = some l →
      (∀ p ∈ l.pieces, ∀ i, InBox lo hi i → InBox p.start p.stop i → ∃ v, ND.read C.vd hd b (target lo out i) = .ok v ∧ VEq (p.val i) v) ∧
      (∀ j, ValidInd P j → (∀ p ∈ l.pieces, ∀ i, InBox lo hi i → InBox p.start p.stop i → j ≠ addVec st (target lo out i)) →
        ND.read C.vd (mkHdr C.vd P) b j = ND.read C.vd (mkHdr C.vd P) buf j)
  | .fill .., _ => False
  | .query q, r => ∀ l, w.cur = some l → ShapeAnswer C.dims l.pieces q r
  | .loop lo hi, .calls cs => ∀ l, w.cur = some l → LoopAnswer l.pieces (fun i => InBox lo hi i ∧ Covered l.pieces i) cs
  | .loop .., _ => False
  | .loopAll, .calls cs => ∀ l, w.cur = some l → LoopAnswer l.pieces (Covered l.pieces) cs
  | .loopAll, _ => False
  | _, r => r = .unit

def AllLegal (C : Cfg) : World → List LOp → Prop
  | _, [] => True
  | w, op :: ops => Legal C w op ∧ AllLegal C (w.next C op) ops

def AllAnswer (C : Cfg) : World → List LOp → List Out → Prop
  | _, [], [] => True
  | w, op :: ops, r :: rs => Answer C w op r ∧ AllAnswer C (w.next C op) ops rs
  | _, _, _ => False

def World.run (C : Cfg) : World → List LOp → World
  | w, [] => w
  | w, op :: ops => (w.next C op).run C ops

/-- No library anywhere; there may be files. -/
def World.init (fs : FS) : World := ⟨none, fun _ => none, fun d n => fs (d, .chunk n) ≠ none⟩

/-! ### Proof -/

/-- A chunk of the library and what the user knows about it. -/
structure RepOne (C : Cfg) (c : Meta × Arr) (p : Piece) : Prop where
  id : c.1.id = p.id
  file : c.1.path = p.file
  start : c.1.start = p.start
  stop : c.1.stop = p.stop
  overlap : c.1.overlap = p.overlap
  val : ∀ i, InBox p.start p.stop i → ∃ v, c.2.get C.vd (localInd c.1 i) = .ok v ∧ VEq (p.val i) v

def Rep (C : Cfg) (cs : List (Meta × Arr)) (ps : List Piece) : Prop :=
  cs.length = ps.length ∧ ∀ (k : Nat) (c : Meta × Arr) (p : Piece), cs[k]? = some c → ps[k]? = some p → RepOne C c p

theorem lt_of_get? {α : Type} {l : List α} {k : Nat} {x : α} (h : l[k]? = some x) : k < l.length := by
  rcases Nat.lt_or_ge k l.length with h' | h'
  · exact h'
  · rw [List.getElem?_eq_none h'] at h; cases h

theorem Rep.left {cs : List (Meta × Arr)} {ps : List Piece} (h : Rep C cs ps) {k : Nat} {c : Meta × Arr} (hc : cs[k]? = some c) :
    ∃ p, ps[k]? = some p ∧ RepOne C c p := by
  have hk := lt_of_get? hc
  have : ps[k]? = some (ps[k]'(by rw [← h.1]; exact hk)) := List.getElem?_eq_getElem _
  exact ⟨_, this, h.2 k c _ hc this⟩

theorem Rep.right {cs : List (Meta × Arr)} {ps : List Piece} (h : Rep C cs ps) {k : Nat} {p : Piece} (hp : ps[k]? = some p) :
    ∃ c, cs[k]? = some c ∧ RepOne C c p := by
  have hk := lt_of_get? hp
  have : cs[k]? = some (cs[k]'(by rw [h.1]; exact hk)) := List.getElem?_eq_getElem _
  exact ⟨_, this, h.2 k _ p this hp⟩

theorem Rep.leftMem {cs : List (Meta × Arr)} {ps : List Piece} (h : Rep C cs ps) {c : Meta × Arr} (hc : c ∈ cs) : ∃ p ∈ ps, RepOne C c p := by
  obtain ⟨k, hk⟩ := List.getElem?_of_mem hc
  obtain ⟨p, h1, h2⟩ := h.left hk
  exact ⟨p, List.mem_of_getElem? h1, h2⟩

theorem Rep.rightMem {cs : List (Meta × Arr)} {ps : List Piece} (h : Rep C cs ps) {p : Piece} (hp : p ∈ ps) : ∃ c ∈ cs, RepOne C c p := by
  obtain ⟨k, hk⟩ := List.getElem?_of_mem hp
  obtain ⟨c, h1, h2⟩ := h.right hk
  exact ⟨c, List.mem_of_getElem? h1, h2⟩

theorem Rep.nil : Rep C [] [] := ⟨rfl, fun k c p h => (by cases h)⟩

theorem Rep.app {cs cs' : List (Meta × Arr)} {ps ps' : List Piece} (h : Rep C cs ps) (h' : Rep C cs' ps') : Rep C (cs ++ cs') (ps ++ ps') := by
  refine ⟨by rw [List.length_append, List.length_append, h.1, h'.1], fun k c p hc hp => ?_⟩
  have hl := h.1
  by_cases hk : k < cs.length
  · rw [List.getElem?_append_left hk] at hc
    rw [List.getElem?_append_left (by omega)] at hp
    exact h.2 k c p hc hp
  · rw [List.getElem?_append_right (by omega)] at hc
    rw [List.getElem?_append_right (by omega), ← h.1] at hp
    exact h'.2 _ c p hc hp

theorem Rep.one {c : Meta × Arr} {p : Piece} (h : RepOne C c p) : Rep C [c] [p] := by
  refine ⟨rfl, fun k c' p' hc hp => ?_⟩
  cases k with
  | zero => cases hc; cases hp; exact h
  | succ k => cases hc

/-- The program state and the world. -/
structure WInv (C : Cfg) (S : Sorter) (Z : SlabSize) (st : MState) (w : World) : Prop where
  closed : w.cur = none → st.lib = none
  opened : ∀ l, w.cur = some l → ∃ lib cs, st.lib = some lib ∧ LInv C S Z lib st.fs cs ∧ Rep C cs l.pieces ∧ lib.idx.nextId = l.next ∧ lib.idx.dir = l.dir ∧
    l.next < 2 ^ 64 ∧ w.disk l.dir = none ∧ ∀ p ∈ l.pieces, p.file ≠ [] → w.names l.dir p.file
  disk : ∀ d ps, w.disk d = some ps → ∃ cs, Saved C st.fs d cs ∧ Rep C cs ps ∧ ∀ p ∈ ps, p.file ≠ [] → w.names d p.file
  index : ∀ d, w.disk d = none → (∀ l, w.cur = some l → l.dir ≠ d) → st.fs (d, .index) = none
  names : ∀ d n, st.fs (d, .chunk n) ≠ none → w.names d n

/-- Other directories are not touched. -/
theorem Saved.frame {fs fs' : FS} {d : Nat} {cs : List (Meta × Arr)} (h : Saved C fs d cs) (hf : ∀ n, fs' (d, n) = fs (d, n)) : Saved C fs' d cs :=
  ⟨h.chunky, by rw [hf]; exact h.index, fun k m a hk => (h.disk k m a hk).frame fun _ => hf _⟩

theorem SameBut.other {dir : Nat} {M : Chunks} {fs fs' : FS} (h : SameBut dir M fs fs') {d : Nat} (hd : d ≠ dir) (n : Name) : fs' (d, n) = fs (d, n) :=
  h _ fun _ _ _ _ _ e => hd (Prod.ext_iff.1 e).1

theorem SameBut.new {dir : Nat} {cs : List (Meta × Arr)} {fs fs' : FS} (h : SameBut dir (chunksOf cs) fs fs') {d : Nat} {n : List Nat} (hn : fs' (d, .chunk n) ≠ none) :
    fs (d, .chunk n) ≠ none ∨ (d = dir ∧ ∃ c ∈ cs, c.1.path ≠ [] ∧ c.1.path = n) := by
  by_cases hc : d = dir ∧ ∃ c ∈ cs, c.1.path ≠ [] ∧ c.1.path = n
  · exact Or.inr hc
  · left
    rwa [h (d, .chunk n) fun k m a hk hp e => hc ⟨(Prod.ext_iff.1 e).1, (m, a), (chunksOf_mem hk).1, hp, by
      have h9 : Name.chunk n = Name.chunk m.path := (Prod.ext_iff.1 e).2
      injection h9 with h9
      exact h9.symm⟩] at hn

/-- Operations that only touch the open library. -/
theorem WInv.local_ {st : MState} {w : World} {l l' : LibSpec} {lib' : Lib} {fs' : FS} {cs cs' : List (Meta × Arr)} (h : WInv C S Z st w) (hl : w.cur = some l)
    (hinv : LInv C S Z lib' fs' cs') (hrep : Rep C cs' l'.pieces) (hn : lib'.idx.nextId = l'.next) (hd : lib'.idx.dir = l'.dir) (hlt : l'.next < 2 ^ 64)
    (hdir : l'.dir = l.dir) (names' : Nat → List Nat → Prop) (hnm : ∀ d n, w.names d n → names' d n) (hnp : ∀ p ∈ l'.pieces, p.file ≠ [] → names' l.dir p.file)
    (fs₁ : FS) (hfs : ∀ d n, (d, n) ≠ (l.dir, Name.index) → fs₁ (d, n) = st.fs (d, n))
    (hsb : SameBut l.dir (chunksOf cs) fs₁ fs') (hcs : ∀ c ∈ cs, c.1.path ≠ [] → ∃ p ∈ l'.pieces, p.file = c.1.path) :
    WInv C S Z ⟨some lib', fs'⟩ { w with cur := some l', names := names' } := by
  obtain ⟨_, _, _, _, _, _, _, _, hdn, _⟩ := h.opened l hl
  have hne : ∀ d, d ≠ l.dir → ∀ n, fs' (d, n) = st.fs (d, n) := fun d hd n => by
    rw [hsb.other hd, hfs _ _ fun e => hd (Prod.ext_iff.1 e).1]
  refine ⟨fun e => (by cases e), fun l₂ e => ?_, fun d ps hps => ?_, fun d hdd ho => ?_, fun d n hn => ?_⟩
  · cases e
    exact ⟨lib', cs', rfl, hinv, hrep, hn, hd, hlt, by rw [hdir]; exact hdn, by rw [hdir]; exact hnp⟩
  · obtain ⟨cs₀, g1, g2, g3⟩ := h.disk d ps hps
    have hdl : d ≠ l.dir := fun e => by subst e; rw [hdn] at hps; cases hps
    exact ⟨cs₀, g1.frame (hne d hdl), g2, fun p hp hf => hnm _ _ (g3 p hp hf)⟩
  · have hdl : d ≠ l.dir := fun e => ho l' rfl (by rw [hdir]; exact e.symm)
    show fs' (d, .index) = none
    rw [hne d hdl]
    exact h.index d hdd fun l₂ e => by rw [hl] at e; cases e; exact hdl.symm
  · rcases hsb.new hn with g | ⟨rfl, c, hc, h1, h2⟩
    · rw [hfs _ _ (by simp)] at g
      exact hnm _ _ (h.names d n g)
    · obtain ⟨p, hp, hpf⟩ := hcs c hc h1
      subst h2
      rw [← hpf]
      exact hnp p hp (by rw [hpf]; exact h1)

theorem Placed.local_eq (m : Meta) (i : List Nat) (h : m.overlap = 0) : localInd m i = subVec i m.start := by
  unfold localInd; rw [padOf_zero h]; simp

theorem path_iff {cs : List (Meta × Arr)} (h : Chunky C cs) {c : Meta × Arr} (hc : c ∈ cs) : c.1.path ≠ [] ↔ c.1.ctype = .specified := by
  have h1 := chunksOf_of_mem h.ids hc
  constructor
  · intro hp
    cases e : c.1.ctype with
    | specified => rfl
    | all_null => exact absurd (h.ok.null _ _ _ h1 e).1 hp
  · exact h.ok.spec _ _ _ h1

/-- Element access is possible in the chunk. -/
theorem RepOne.plain {c : Meta × Arr} {p : Piece} {cs : List (Meta × Arr)} (h : Chunky C cs) (hc : c ∈ cs) (hr : RepOne C c p) (hp : p.Plain) :
    c.1.ctype = .all_null → c.1.overlap = 0 := fun hn => by
  rw [hr.overlap]
  refine hp ?_
  rw [← hr.file]
  exact (h.ok.null _ _ _ (chunksOf_of_mem h.ids hc) hn).1

theorem rep_register (hC : C.Ok) {m : Meta} {a : Arr} (ha : a.Ok C) {n : Nat} {uuid start stop : List Nat} {overlap : Nat} {opt : Bool}
    (hsh : a.shape = (subVec stop start).map (· + 2 * overlap)) (hso : (stored C a start stop overlap opt).Ok C)
    (hp : Placed C m (stored C a start stop overlap opt))
    (h1 : m.start = start) (h2 : m.stop = stop) (h3 : m.overlap = overlap) (hct : m.ctype = (if opt && a.null then .all_null else .specified))
    (h4 : m.path = if opt && a.null then [] else uuid) (h5 : m.id = n) :
    RepOne C (m, stored C a start stop overlap opt) (newPiece C n uuid a start stop overlap opt) := by
  subst h1; subst h2; subst h3; subst h5
  refine ⟨rfl, h4, rfl, rfl, rfl, fun i hi => ?_⟩
  replace hi : InBox m.start m.stop i := hi
  obtain ⟨v, hv, hvl, _⟩ := hso.get hC (valid_local hp hi)
  refine ⟨v, hv, ?_⟩
  show VEq (elemOr (a.get C.vd ((subVec i m.start).map (· + m.overlap)))) v
  by_cases e : (opt && a.null) = true ∧ m.overlap ≠ 0
  · rw [stored_null e.1 e.2] at hv
    have hval : ValidInd a.shape ((subVec i m.start).map (· + m.overlap)) := by
      have k1 := hp.startLen
      have k2 := hp.stopLen
      have k3 := hi.1
      have hls : m.stop.length = m.start.length := by omega
      have h6 : ∀ {x : List Nat} {c d : Nat}, d < x.length → (x.map (· + c)).getD d 0 = x.getD d 0 + c := fun {x c d} hd => by
        rw [List.getD_eq_getElem?_getD, List.getD_eq_getElem?_getD, List.getElem?_map, List.getElem?_eq_getElem hd]; rfl
      refine ⟨by rw [hsh, List.length_map, List.length_map, length_subVec k3, length_subVec hls]; omega, fun d hd => ?_⟩
      rw [hsh, List.length_map, length_subVec hls] at hd
      rw [hsh, h6 (by rw [length_subVec k3]; omega), h6 (by rw [length_subVec hls]; omega), getD_subVec k3, getD_subVec hls]
      have := hi.2.2 d (by omega)
      omega
    obtain ⟨u, hu, hul, _⟩ := ha.get hC hval
    rw [hu]
    show VEq u v
    have hn := e.1
    rw [Bool.and_eq_true] at hn
    refine Or.inr ⟨by rw [hul, hvl], fun x hx => ?_, fun x hx => ?_⟩
    · have := get_subset hu x hx
      have h8 := hn.2
      unfold Arr.null at h8
      rw [List.all_eq_true] at h8
      exact floatNull_iff.1 (h8 x this)
    · have := get_subset hv x hx
      unfold zeros at this
      simp only [List.mem_replicate] at this
      rw [this.2]; exact Or.inl rfl
  · have hpo : padOf m = m.overlap := padOf_of fun hn => by
      rw [hct] at hn
      cases e' : (opt && a.null) with
      | false => rw [e'] at hn; cases hn
      | true =>
        by_cases h0 : m.overlap = 0
        · exact h0
        · exact absurd ⟨e', h0⟩ e
    have hsa : stored C a m.start m.stop m.overlap opt = a := by
      by_cases h0 : m.overlap = 0
      · rw [h0, stored_zero]
      · exact stored_spec (by
          cases e' : (opt && a.null) with
          | false => rfl
          | true => exact absurd ⟨e', h0⟩ e)
    rw [hsa] at hv
    have : localInd m i = (subVec i m.start).map (· + m.overlap) := by unfold localInd; rw [hpo]
    rw [← this, hv]; exact .refl _

theorem rep_append (hC : C.Ok) {m : Meta} {a v : Arr} {p : Piece} (ha : a.Ok C) (hv : v.Ok C) (he : Extends C a v) (hp : Placed C m a) (h0 : m.overlap = 0)
    (hr : RepOne C (m, a) p) (hlt : m.stop.getD 0 0 + v.shape.getD 0 0 < 2 ^ 62) :
    RepOne C (m.grow 0 (v.shape.getD 0 0), a.cat v) (p.extend C v) := by
  have hU : U64 = 2 ^ 64 := rfl
  have kd := hC.dims
  have e1 : m.start = p.start := hr.start
  have e2 : m.stop = p.stop := hr.stop
  have hsl := hp.stopLen
  have hstop : (m.grow 0 (v.shape.getD 0 0)).stop = p.stop.set 0 (p.stop.getD 0 0 + v.shape.getD 0 0) := by
    show bump m.stop 0 _ = _
    unfold bump
    rw [wadd_eq (by omega), e2]
  refine ⟨hr.id, hr.file, hr.start, hstop, hr.overlap, fun i hi => ?_⟩
  have hi' : InBox m.start (m.stop.set 0 (m.stop.getD 0 0 + v.shape.getD 0 0)) i := by rw [e1, e2]; exact hi
  have hg := grow_placed hC hp h0 hv hlt
  have hil : i.length = C.dims := by rw [hi'.1, hp.startLen]
  have hls : i.length = m.start.length := hi'.1
  have hv2 : ValidInd (a.cat v).shape (localInd m i) := by
    have := valid_local hg (i := i) (by rw [hstop, ← e2]; exact hi')
    exact this
  obtain ⟨n, k, R, s1, s2, s3⟩ := he.shapes hC ha hv
  obtain ⟨x, xs, hx⟩ : ∃ x xs, localInd m i = x :: xs := by
    have : (localInd m i).length = i.length := length_localInd hls
    cases hh : localInd m i with
    | nil => rw [hh] at this; simp at this; omega
    | cons x xs => exact ⟨x, xs, rfl⟩
  have hx0 : x = i.getD 0 0 - m.start.getD 0 0 := by
    have := getD_localInd hls (d := 0) (by omega)
    rw [hx, padOf_zero h0] at this
    simpa using this
  have hn0 : n = m.stop.getD 0 0 - m.start.getD 0 0 := by
    have := hp.getD_arr (d := 0) kd
    rw [s1, padOf_zero h0] at this
    have := hp.getD_stop 0
    simp at *; omega
  have hcat := cat_get (vd := C.vd) s1 s2 (by omega) ha.len hv.len (i := x) (is := xs) (by rw [← cat_shape s1 s2, ← hx]; exact hv2)
  have hb := hi'.2.2 0 (by omega)
  have hso := hp.getD_stop 0
  show ∃ w, (a.cat v).get C.vd (localInd m i) = .ok w ∧ VEq (if i.getD 0 0 < p.stop.getD 0 0 then p.val i else elemOr (v.get C.vd (subVec i (p.start.set 0 (p.stop.getD 0 0))))) w
  rw [hx, hcat, ← e1, ← e2]
  by_cases hlt' : i.getD 0 0 < m.stop.getD 0 0
  · rw [if_pos hlt', if_pos (by omega), ← hx]
    refine hr.val i ⟨by rw [← e1]; exact hi'.1, by rw [← e2, hsl, hil], fun d hd => ?_⟩
    have := hi'.2.2 d hd
    rw [getD_set0 (by omega)] at this
    rw [← e1, ← e2]
    by_cases h : d = 0
    · subst h; omega
    · rw [if_neg h] at this; exact this
  · rw [if_neg hlt', if_neg (by omega)]
    have hsub : subVec i (m.start.set 0 (m.stop.getD 0 0)) = (x - n) :: xs := by
      have hll : i.length = (m.start.set 0 (m.stop.getD 0 0)).length := by rw [List.length_set]; exact hls
      apply ext_getD
      · rw [length_subVec hll, ← length_localInd hls, hx]; rfl
      · intro d hd
        rw [length_subVec hll] at hd
        rw [getD_subVec hll, getD_set0 (by have := hp.startLen; omega)]
        cases d with
        | zero => simp only [if_true, List.getD_cons_zero]; omega
        | succ d =>
          have := getD_localInd hls (d := d + 1) hd
          rw [hx, padOf_zero h0] at this
          rw [if_neg (by omega)]
          simpa using this.symm
    rw [hsub]
    have hvv : ValidInd v.shape ((x - n) :: xs) := by
      have hv2 := hv2
      rw [hx, cat_shape s1 s2] at hv2
      refine ⟨by have := hv2.1; rw [s2]; simpa using this, fun d hd => ?_⟩
      have h8 := hv2.2 d (by rw [s2] at hd; simpa using hd)
      rw [s2]
      cases d with
      | zero => simp only [List.getD_cons_zero] at h8 ⊢; omega
      | succ d => simpa using h8
    obtain ⟨w, hw, _⟩ := hv.get hC hvv
    exact ⟨w, hw, by rw [hw]; exact .refl _⟩

theorem rep_swap (hC : C.Ok) {x y : Nat} (hx : x < C.dims) (hy : y < C.dims) {c : Meta × Arr} {a' : Arr} {p : Piece} (hp : Placed C c.1 c.2) (hr : RepOne C c p)
    (hs : Swapped C x y c.2 a') : RepOne C (c.1.swap x y, a') (p.swap x y) := by
  have _ := hC.dims
  have e1 := hr.start
  have e2 := hr.stop
  have hsl := hp.startLen
  refine ⟨hr.id, hr.file, by show swapAt c.1.start x y = _; rw [e1]; rfl, by show swapAt c.1.stop x y = _; rw [e2]; rfl, hr.overlap, fun i hi => ?_⟩
  have hi : InBox (swapAt p.start x y) (swapAt p.stop x y) i := hi
  have hb : x < p.start.length ∧ y < p.start.length := by rw [← e1, hsl]; exact ⟨hx, hy⟩
  have hi2 := inBox_swap hb hi
  have hil : i.length = C.dims := by rw [hi.1, length_swapAt, ← e1, hsl]
  obtain ⟨v, h1, h2⟩ := hr.val _ hi2
  have hsi : (swapAt i x y).length = c.1.start.length := by rw [length_swapAt, hil, hsl]
  have hloc : localInd (c.1.swap x y) i = swapAt (localInd c.1 (swapAt i x y)) x y := by
    have hli : (localInd c.1 (swapAt i x y)).length = C.dims := by rw [length_localInd hsi, length_swapAt, hil]
    have hll : i.length = (c.1.swap x y).start.length := by show i.length = (swapAt c.1.start x y).length; rw [length_swapAt, hil, hsl]
    apply ext_getD
    · rw [length_localInd hll, length_swapAt, hli, hil]
    · intro d hd
      rw [length_localInd hll] at hd
      rw [getD_localInd hll hd, getD_swapAt (by omega) (by omega)]
      show _ - (swapAt c.1.start x y).getD d 0 + padOf c.1 = _
      rw [getD_swapAt (by omega) (by omega)]
      have hsw : ∀ d, (swapAt i x y).getD d 0 = i.getD (if d = x then y else if d = y then x else d) 0 := fun d => getD_swapAt (by omega) (by omega) d
      rw [getD_localInd hsi (by rw [length_swapAt]; (repeat' split) <;> omega), hsw]
      congr 3
      (repeat' split) <;> omega
  obtain ⟨v', w, g1, g2, g3⟩ := hs.get _ (valid_local hp (by rw [e1, e2]; exact hi2))
  rw [h1] at g1; cases g1
  refine ⟨w, ?_, h2.trans g3⟩
  show a'.get C.vd (localInd (c.1.swap x y) i) = _
  rw [hloc]; exact g2

theorem Rep.cons {c : Meta × Arr} {p : Piece} {cs : List (Meta × Arr)} {ps : List Piece} (h : RepOne C c p) (h' : Rep C cs ps) : Rep C (c :: cs) (p :: ps) :=
  (Rep.one h).app h'

theorem rep_swapAll (hC : C.Ok) {x y : Nat} (hx : x < C.dims) (hy : y < C.dims) {cs cs' : List (Meta × Arr)} (h : SwappedAll C x y cs cs') :
    ∀ {ps}, Rep C cs ps → (∀ c ∈ cs, Placed C c.1 c.2) → Rep C cs' (ps.map fun p => p.swap x y) := by
  induction h with
  | nil => intro ps h _; cases ps with
    | nil => exact .nil
    | cons p ps => exact absurd h.1 (by simp)
  | @cons c cs a' cs' h1 h2 ih =>
    intro ps hr hp
    cases ps with
    | nil => exact absurd hr.1 (by simp)
    | cons p ps =>
      have h0 : RepOne C c p := hr.2 0 c p rfl rfl
      have ht : Rep C cs ps := ⟨by have := hr.1; simpa using this, fun k c' p' hc hp => hr.2 (k + 1) c' p' hc hp⟩
      exact .cons (rep_swap hC hx hy (hp c (by simp)) h0 h1) (ih ht fun c hc => hp c (by simp [hc]))

theorem rep_numbered {n : Nat} {cs : List (Meta × Arr)} {ps : List Piece} (h : Rep C cs ps) : Rep C (numbered n cs) (renumbered n ps) := by
  refine ⟨by simp [numbered, renumbered, h.1], fun k c p hc hp => ?_⟩
  rw [numbered_get] at hc
  unfold renumbered at hp
  rw [List.getElem?_map, List.getElem?_zipIdx] at hp
  cases hck : cs[k]? with
  | none => rw [hck] at hc; cases hc
  | some c₀ =>
    obtain ⟨p₀, g1, g2⟩ := h.left hck
    rw [hck] at hc
    rw [g1] at hp
    simp only [Option.map_some, Option.some.injEq, Nat.zero_add] at hc hp
    subst hc; subst hp
    exact ⟨rfl, g2.file, g2.start, g2.stop, g2.overlap, g2.val⟩

theorem Rep.file_mem {cs : List (Meta × Arr)} {ps : List Piece} (h : Rep C cs ps) {c : Meta × Arr} (hc : c ∈ cs) : ∃ p ∈ ps, p.file = c.1.path := by
  obtain ⟨p, h1, h2⟩ := h.leftMem hc
  exact ⟨p, h1, h2.file.symm⟩

theorem Rep.ids {cs : List (Meta × Arr)} {ps : List Piece} (h : Rep C cs ps) {n : Nat} (hn : ∀ p ∈ ps, p.id ≠ n) : n ∉ cs.map (·.1.id) := by
  intro hm
  obtain ⟨c, hc, e⟩ := List.mem_map.1 hm
  obtain ⟨p, h1, h2⟩ := h.leftMem hc
  exact hn p h1 (by rw [← h2.id]; exact e)

section steps
variable {st : MState} {w : World}

theorem step_open (hC : C.Ok) (h : WInv C S Z st w) {dir : Nat} {init : List Nat} (hl : Legal C w (.open dir init)) :
    ∃ st' r, st.step C S (.open dir init) = .ok (st', r) ∧ Answer C w (.open dir init) r ∧ WInv C S Z st' (w.next C (.open dir init)) := by
  obtain ⟨h1, h2⟩ := hl
  have fin : ∀ lib cs, Lib.open C S st.fs dir init = .ok lib → lib.idx.dir = dir → lib.idx.nextId = 0 → LInv C S Z lib st.fs cs → Rep C cs ((w.disk dir).getD []) →
      (∀ p ∈ (w.disk dir).getD [], p.file ≠ [] → w.names dir p.file) →
      ∃ st' r, st.step C S (.open dir init) = .ok (st', r) ∧ Answer C w (.open dir init) r ∧ WInv C S Z st' (w.next C (.open dir init)) := by
    intro lib cs e1 e2 e3 e4 e5 e6
    refine ⟨⟨some lib, st.fs⟩, .unit, ?_, rfl, fun e => (by cases e), fun l e => ?_, fun d ps hd => ?_, fun d hd ho => ?_, h.names⟩
    · simp only [MState.step, e1, Res.ok_bind]
    · cases e
      refine ⟨lib, cs, rfl, e4, e5, e3, e2, by show 0 < 2 ^ 64; decide, ?_, e6⟩
      show upd w.disk dir none dir = none
      unfold upd; rw [if_pos rfl]
    · have hd : upd w.disk dir none d = some ps := hd
      unfold upd at hd
      split at hd
      · cases hd
      · exact h.disk d ps hd
    · have hd : upd w.disk dir none d = none := hd
      have hne : dir ≠ d := ho _ rfl
      unfold upd at hd
      rw [if_neg (Ne.symm hne)] at hd
      exact h.index d hd fun l e => by rw [h1] at e; cases e
  cases hd : w.disk dir with
  | none =>
    obtain ⟨lib, e1, e2, e3, e4⟩ := open_new (C := C) (S := S) (Z := Z) (h.index dir hd fun l e => by rw [h1] at e; cases e) init
    exact fin lib [] e1 e2 e3 e4 (by rw [hd]; exact .nil) (by rw [hd]; intro p hp; cases hp)
  | some ps =>
    obtain ⟨cs, g1, g2, g3⟩ := h.disk dir ps hd
    obtain ⟨lib, e1, e2, e3, e4⟩ := reopen_ok (S := S) (Z := Z) hC g1 (by rw [g2.1]; rw [hd] at h2; exact h2) init
    exact fin lib cs e1 e2 e3 e4 (by rw [hd]; exact g2) (by rw [hd]; exact g3)

theorem step_close (hC : C.Ok) (h : WInv C S Z st w) (hl : Legal C w .close) :
    ∃ st' r, st.step C S .close = .ok (st', r) ∧ Answer C w .close r ∧ WInv C S Z st' (w.next C .close) := by
  obtain ⟨l, h1⟩ := hl
  obtain ⟨lib, cs, a1, a2, a3, a4, a5, a6, a7, a8⟩ := h.opened l h1
  obtain ⟨fs', e1, e2, e3⟩ := destroy_ok hC a2
  have hne : ∀ d, d ≠ l.dir → ∀ n, fs' (d, n) = st.fs (d, n) := fun d hd n =>
    e3 _ (fun e => hd (by rw [← a5]; exact (Prod.ext_iff.1 e).1)) fun k m a _ _ e => hd (by rw [← a5]; exact (Prod.ext_iff.1 e).1)
  have hw : w.next C .close = { w with cur := none, disk := upd w.disk l.dir (some l.pieces) } := by unfold World.next; rw [h1]
  rw [hw]
  refine ⟨⟨none, fs'⟩, .unit, ?_, rfl, fun _ => rfl, fun l e => (by cases e), fun d ps hd => ?_, fun d hd ho => ?_, fun d n hn => ?_⟩
  · simp only [MState.step, a1, e1, Res.ok_bind]
  · have hd : upd w.disk l.dir (some l.pieces) d = some ps := hd
    unfold upd at hd
    split at hd
    · cases hd
      rename_i hdd
      subst hdd
      exact ⟨cs, by rw [← a5]; exact e2, a3, a8⟩
    · rename_i hdd
      obtain ⟨cs₀, g1, g2, g3⟩ := h.disk d ps hd
      exact ⟨cs₀, g1.frame (hne d hdd), g2, g3⟩
  · have hd : upd w.disk l.dir (some l.pieces) d = none := hd
    unfold upd at hd
    split at hd
    · cases hd
    · rename_i hdd
      show fs' (d, .index) = none
      rw [hne d hdd]
      exact h.index d hd fun l' e => by rw [h1] at e; cases e; exact fun e => hdd e.symm
  · by_cases hdd : d = l.dir
    · subst hdd
      by_cases hc : ∃ c ∈ cs, c.1.path ≠ [] ∧ c.1.path = n
      · obtain ⟨c, c1, c2, c3⟩ := hc
        obtain ⟨p, p1, p2⟩ := a3.file_mem c1
        subst c3
        have := a8 p p1 (by rw [p2]; exact c2)
        rwa [p2] at this
      · have hn : fs' (l.dir, .chunk n) ≠ none := hn
        rw [e3 _ (by simp) fun k m a hk hp e => hc ⟨(m, a), (chunksOf_mem hk).1, hp, by
          have h9 : Name.chunk n = Name.chunk m.path := (Prod.ext_iff.1 e).2
          injection h9 with h9
          exact h9.symm⟩] at hn
        exact h.names _ _ hn
    · have hn : fs' (d, .chunk n) ≠ none := hn
      rw [hne d hdd] at hn
      exact h.names _ _ hn

theorem step_register (hC : C.Ok) (h : WInv C S Z st w) {uuid : List Nat} {a : Arr} {start stop : List Nat} {overlap : Nat} {opt : Bool}
    (hl : Legal C w (.register uuid a start stop overlap opt)) :
    ∃ st' r, st.step C S (.register uuid a start stop overlap opt) = .ok (st', r) ∧ Answer C w (.register uuid a start stop overlap opt) r ∧
      WInv C S Z st' (w.next C (.register uuid a start stop overlap opt)) := by
  obtain ⟨l, h1, hr⟩ := hl
  obtain ⟨lib, cs, a1, a2, a3, a4, a5, a6, a7, a8⟩ := h.opened l h1
  have hreg : RegOk C cs uuid a start stop overlap opt := by
    refine ⟨hr.arr, hr.startLen, hr.stopLen, hr.lt, hr.ovl, hr.shape, fun c hc => ?_, ⟨hr.uuid.1, hr.uuid.2.1, fun c hc => ?_⟩, hr.pad⟩
    · obtain ⟨p, p1, p2⟩ := a3.leftMem hc
      rw [p2.start, p2.stop]; exact hr.disj p p1
    · obtain ⟨p, p1, p2⟩ := a3.leftMem hc
      rw [p2.file]; exact hr.uuid.2.2 p p1
  obtain ⟨lib', fs', m, e1, e2, e3, e4, e5, e6, e7, e8, e9, e10, e11⟩ := register_ok hC a2 hreg (by rw [a4]; exact a3.ids hr.id) (by rw [a4]; exact a6)
  have hU : U64 = 2 ^ 64 := rfl
  have hnx := hr.next
  rw [a4, wadd_eq (by omega)] at e9
  have hw : w.next C (.register uuid a start stop overlap opt) =
      { w with
        cur := some ⟨l.dir, l.next + 1, l.pieces ++ [newPiece C l.next uuid a start stop overlap opt]⟩
        names := upd w.names l.dir fun n => w.names l.dir n ∨ n = uuid } := by unfold World.next; rw [h1]
  rw [hw]
  have hpl := e2.chunky.placed (m, stored C a start stop overlap opt) (by simp)
  have hso := e2.chunky.ok.arr _ _ _ (chunksOf_of_mem e2.chunky.ids (v := (m, stored C a start stop overlap opt)) (by simp))
  have hrep : Rep C (cs ++ [(m, stored C a start stop overlap opt)]) (l.pieces ++ [newPiece C l.next uuid a start stop overlap opt]) :=
    a3.app (.one (rep_register hC hr.arr hr.shape hso hpl e3 e4 e5 e6 e7 (by rw [e8, a4])))
  refine ⟨⟨some lib', fs'⟩, .unit, ?_, rfl, h.local_ (l' := ⟨l.dir, l.next + 1, l.pieces ++ [newPiece C l.next uuid a start stop overlap opt]⟩) h1 e2 hrep e9 (e10.trans a5) (by show l.next + 1 < _; omega) rfl _ ?_ ?_ st.fs (fun _ _ _ => rfl) (by rw [← a5]; exact e11)
    (fun c hc _ => hrep.file_mem hc)⟩
  · simp only [MState.step, a1, e1, Res.ok_bind]
  · intro d n hn
    unfold upd
    split
    · rename_i e; subst e; exact Or.inl hn
    · exact hn
  · intro p hp hf
    unfold upd
    rw [if_pos rfl]
    rcases List.mem_append.1 hp with hp | hp
    · exact Or.inl (a8 p hp hf)
    · right
      rw [List.mem_singleton] at hp; subst hp
      have hf : (if opt && a.null then [] else uuid) ≠ ([] : List Nat) := hf
      show (if opt && a.null then [] else uuid) = uuid
      split at hf
      · exact absurd rfl hf
      · rename_i hh; rw [if_neg hh]

theorem step_append (hC : C.Ok) (h : WInv C S Z st w) {start : List Nat} {s : Arr} (hl : Legal C w (.append start s)) :
    ∃ st' r, st.step C S (.append start s) = .ok (st', r) ∧ Answer C w (.append start s) r ∧ WInv C S Z st' (w.next C (.append start s)) := by
  obtain ⟨l, k, p, h1, hr⟩ := hl
  obtain ⟨lib, cs, a1, a2, a3, a4, a5, a6, a7, a8⟩ := h.opened l h1
  obtain ⟨c, c1, c2⟩ := a3.right hr.at_
  have hmem := List.mem_of_getElem? c1
  have hpl := a2.chunky.placed c hmem
  have hov : c.1.overlap = 0 := by rw [c2.overlap]; exact hr.overlap
  have hpstart := c2.start
  have hpstop := c2.stop
  have hshape : c.2.shape = subVec p.stop p.start := by
    rw [hpl.arr, padOf_zero hov, ← hpstart, ← hpstop]
    have h5 := hpl.startLen
    have h6 := hpl.shapeLen
    have h7 := hpl.stopLen
    apply ext_getD
    · rw [length_subVec (by omega)]; simp; omega
    · intro d hd
      rw [getD_subVec (by omega), hpl.getD_stop d]
      simp
  have hext : Extends C c.2 s := ⟨by rw [hshape]; exact hr.tail, by
    show Fit C (c.2.shape.set 0 (c.2.shape.getD 0 0 + s.shape.getD 0 0)); rw [hshape]; exact hr.fit⟩
  have happ : AppOk C cs k c.1 c.2 start s := by
    refine ⟨c1, (path_iff a2.chunky hmem).1 (by rw [c2.file]; exact hr.file), hov, by rw [hpstart, hpstop]; exact hr.start, hr.arr, hext, by rw [hpstop]; exact hr.lt,
      fun j c' hj hjk => ?_⟩
    obtain ⟨p', q1, q2⟩ := a3.left hj
    rw [q2.start, q2.stop, hpstart, hpstop]
    exact hr.disj j p' q1 hjk
  obtain ⟨lib', fs', e1, e2, e3, e4, e5⟩ := append_ok hC a2 happ
  have hw : w.next C (.append start s) =
      { w with cur := some { l with pieces := l.pieces.map fun p => if start = p.start.set 0 (p.stop.getD 0 0) then p.extend C s else p } } := by
    unfold World.next; rw [h1]
  have hkl := lt_of_get? c1
  have honly : ∀ j p', l.pieces[j]? = some p' → start = p'.start.set 0 (p'.stop.getD 0 0) → j = k := by
    intro j p' hj he
    by_cases hjk : j = k
    · exact hjk
    · exfalso
      obtain ⟨c', q1, q2⟩ := a3.right hj
      have hpl' := a2.chunky.placed c' (List.mem_of_getElem? q1)
      have hd := a2.chunky.disj.of_ne q1 c1 hjk
      have kd := hC.dims
      have b1 := hpl.startLen
      have b2 := hpl'.startLen
      have b3 := hpl.stopLen
      have b4 := hpl'.stopLen
      have hse : c.1.start.set 0 (c.1.stop.getD 0 0) = c'.1.start.set 0 (c'.1.stop.getD 0 0) := by
        rw [hpstart, hpstop, q2.start, q2.stop, ← hr.start, ← he]
      have hse' : ∀ d, (if d = 0 then c.1.stop.getD 0 0 else c.1.start.getD d 0) = (if d = 0 then c'.1.stop.getD 0 0 else c'.1.start.getD d 0) := fun d => by
        rw [← getD_set0 (by omega), ← getD_set0 (by omega), hse]
      have hlt := fun (m : Meta) (a : Arr) (hp : Placed C m a) (d : Nat) (hd : d < C.dims) => And.intro (hp.getD_stop d) (hp.pos d hd)
      refine hd (c.1.start.set 0 (c.1.stop.getD 0 0 - 1)) ⟨⟨by simp; omega, by simp; omega, fun d hd => ?_⟩, ⟨by simp, by simp; omega, fun d hd => ?_⟩⟩
      all_goals
        rw [List.length_set] at hd
        have i1 := hlt _ _ hpl d (by omega)
        have i2 := hlt _ _ hpl' d (by omega)
        have i3 := hse' d
        rw [getD_set0 (by omega)]
        by_cases hd0 : d = 0
        · subst hd0
          simp only [if_true] at *
          omega
        · simp only [if_neg hd0] at *
          omega
  have hmap : (l.pieces.map fun p => if start = p.start.set 0 (p.stop.getD 0 0) then p.extend C s else p) = l.pieces.set k (p.extend C s) := by
    apply List.ext_getElem?
    intro j
    rw [List.getElem?_map, List.getElem?_set]
    by_cases hjk : k = j
    · subst hjk
      rw [if_pos rfl, if_pos (lt_of_get? hr.at_), hr.at_]
      simp only [Option.map_some]
      rw [if_pos hr.start]
    · rw [if_neg hjk]
      cases hj : l.pieces[j]? with
      | none => rfl
      | some p' =>
        simp only [Option.map_some]
        rw [if_neg fun e => hjk (honly j p' hj e).symm]
  rw [hw, hmap]
  have hrep : Rep C (cs.set k (c.1.grow 0 (s.shape.getD 0 0), c.2.cat s)) (l.pieces.set k (p.extend C s)) := by
    refine ⟨by simp [a3.1], fun j c' p' hc hp => ?_⟩
    rw [List.getElem?_set] at hc hp
    by_cases hjk : k = j
    · subst hjk
      rw [if_pos rfl, if_pos hkl] at hc
      rw [if_pos rfl, if_pos (lt_of_get? hr.at_)] at hp
      cases hc; cases hp
      exact rep_append hC (a2.chunky.ok.arr _ _ _ (chunksOf_of_mem a2.chunky.ids hmem)) hr.arr hext hpl hov c2 (by rw [hpstop]; exact hr.lt)
    · rw [if_neg hjk] at hc hp
      exact a3.2 j c' p' hc hp
  have hfile : ∀ p' ∈ l.pieces.set k (p.extend C s), ∃ p'' ∈ l.pieces, p'.file = p''.file := by
    intro p' hp'
    rcases List.mem_or_eq_of_mem_set hp' with hp' | rfl
    · exact ⟨p', hp', rfl⟩
    · exact ⟨p, List.mem_of_getElem? hr.at_, rfl⟩
  refine ⟨⟨some lib', fs'⟩, .unit, ?_, rfl, ?_⟩
  · simp only [MState.step, a1, e1, Res.ok_bind]
  · refine h.local_ (cs := cs) (l' := { l with pieces := l.pieces.set k (p.extend C s) }) h1 e2 hrep (e3.trans a4) (e4.trans a5) a6 rfl _ (fun _ _ hn => hn) ?_ st.fs (fun _ _ _ => rfl) (by rw [← a5]; exact e5) ?_
    · intro p' hp' hf
      obtain ⟨p'', q1, q2⟩ := hfile p' hp'
      rw [q2] at hf ⊢
      exact a8 p'' q1 hf
    · intro c' hc' _
      obtain ⟨j, hj⟩ := List.getElem?_of_mem hc'
      obtain ⟨p', q1, q2⟩ := a3.left hj
      by_cases hjk : k = j
      · subst hjk
        rw [c1] at hj; cases hj
        exact ⟨p.extend C s, List.mem_set (lt_of_get? hr.at_) _, c2.file.symm⟩
      · exact ⟨p', List.mem_of_getElem? (i := j) (by rw [List.getElem?_set, if_neg hjk]; exact q1), q2.file.symm⟩

theorem step_get (hC : C.Ok) (h : WInv C S Z st w) {i : List Nat} (hl : Legal C w (.get i)) :
    ∃ st' r, st.step C S (.get i) = .ok (st', r) ∧ Answer C w (.get i) r ∧ WInv C S Z st' (w.next C (.get i)) := by
  obtain ⟨l, p, h1, hp, hi, hpln⟩ := hl
  obtain ⟨lib, cs, a1, a2, a3, a4, a5, a6, a7, a8⟩ := h.opened l h1
  obtain ⟨c, c1, c2⟩ := a3.rightMem hp
  obtain ⟨lib', fs', v, u, e1, e2, e3, e4, e5, e6, e7⟩ := get_ok hC a2 c1 (i := i) (by rw [c2.start, c2.stop]; exact hi) (c2.plain a2.chunky c1 hpln)
  have hw : w.next C (.get i) = { w with cur := some l } := by unfold World.next; cases w; simp at h1; subst h1; rfl
  rw [hw]
  refine ⟨⟨some lib', fs'⟩, .vec u, ?_, ?_, h.local_ h1 e2 a3 (e3.trans a4) (e4.trans a5) a6 rfl _ (fun _ _ hn => hn) a8 st.fs (fun _ _ _ => rfl) (by rw [← a5]; exact e7)
    fun c hc _ => a3.file_mem hc⟩
  · simp only [MState.step, a1, e1, Res.ok_bind]
  · intro l' hl' p' hp' hi'
    rw [h1] at hl'; cases hl'
    obtain ⟨c', d1, d2⟩ := a3.rightMem hp'
    have hcc : c' = c := by
      obtain ⟨j, hj⟩ := List.getElem?_of_mem d1
      obtain ⟨k, hk⟩ := List.getElem?_of_mem c1
      by_cases hjk : j = k
      · subst hjk; rw [hj] at hk; cases hk; rfl
      · exact absurd ⟨by rw [d2.start, d2.stop]; exact hi', by rw [c2.start, c2.stop]; exact hi⟩ (a2.chunky.disj.of_ne hj hk hjk i)
    subst hcc
    obtain ⟨v', g1, g2⟩ := d2.val i hi'
    rw [e5] at g1; cases g1
    exact g2.trans e6

theorem step_fill (hC : C.Ok) (h : WInv C S Z st w) {P s : List Nat} {hd : Hdr} {buf lo hi out : List Nat} (hl : Legal C w (.fill P s hd buf lo hi out)) :
    ∃ st' r, st.step C S (.fill P s hd buf lo hi out) = .ok (st', r) ∧ Answer C w (.fill P s hd buf lo hi out) r ∧
      WInv C S Z st' (w.next C (.fill P s hd buf lo hi out)) := by
  obtain ⟨l, h1, hf, hb⟩ := hl
  obtain ⟨lib, cs, a1, a2, a3, a4, a5, a6, a7, a8⟩ := h.opened l h1
  obtain ⟨lib', fs', b, e1, e2, e3, e4, e5, e6, e7⟩ := fillArray_ok hC a2 hf hb
  have hw : w.next C (.fill P s hd buf lo hi out) = { w with cur := some l } := by unfold World.next; cases w; simp at h1; subst h1; rfl
  rw [hw]
  refine ⟨⟨some lib', fs'⟩, .buf b, ?_, ?_, h.local_ h1 e2 a3 (by rw [e3]; exact a4) (by rw [e3]; exact a5) a6 rfl _ (fun _ _ hn => hn) a8 st.fs (fun _ _ _ => rfl) (by rw [← a5]; exact e4)
    fun c hc _ => a3.file_mem hc⟩
  · simp only [MState.step, a1, e1, Res.ok_bind]
  · refine ⟨e5, fun l' hl' => ?_⟩
    rw [h1] at hl'; cases hl'
    refine ⟨fun p hp i hi1 hi2 => ?_, fun j hj hno => e7 j hj fun c hc i g1 g2 => ?_⟩
    · obtain ⟨c, d1, d2⟩ := a3.rightMem hp
      obtain ⟨v, u, g1, g2, g3⟩ := e6 c d1 i hi1 (by rw [d2.start, d2.stop]; exact hi2)
      obtain ⟨v', k1, k2⟩ := d2.val i hi2
      rw [g1] at k1; cases k1
      exact ⟨u, g2, k2.trans g3⟩
    · obtain ⟨p, p1, p2⟩ := a3.leftMem hc
      exact hno p p1 i g1 (by rw [← p2.start, ← p2.stop]; exact g2)

theorem step_flush (hC : C.Ok) (h : WInv C S Z st w) (hl : Legal C w .flush) :
    ∃ st' r, st.step C S .flush = .ok (st', r) ∧ Answer C w .flush r ∧ WInv C S Z st' (w.next C .flush) := by
  obtain ⟨l, h1⟩ := hl
  obtain ⟨lib, cs, a1, a2, a3, a4, a5, a6, a7, a8⟩ := h.opened l h1
  obtain ⟨lib', fs', e1, e2, e3, e4, e5⟩ := flushLib_ok hC a2
  have hw : w.next C .flush = { w with cur := some l } := by unfold World.next; cases w; simp at h1; subst h1; rfl
  rw [hw]
  refine ⟨⟨some lib', fs'⟩, .unit, ?_, rfl, h.local_ h1 e2 a3 (by rw [e3]; exact a4) (by rw [e3]; exact a5) a6 rfl _ (fun _ _ hn => hn) a8 _ ?_ (by rw [← a5]; exact e5)
    fun c hc _ => a3.file_mem hc⟩
  · simp only [MState.step, a1, e1, Res.ok_bind]
  · intro d n hn
    rw [a5]
    unfold FS.set
    rw [if_neg hn]

theorem step_swap (hC : C.Ok) (h : WInv C S Z st w) {x y : Nat} (hl : Legal C w (.swap x y)) :
    ∃ st' r, st.step C S (.swap x y) = .ok (st', r) ∧ Answer C w (.swap x y) r ∧ WInv C S Z st' (w.next C (.swap x y)) := by
  obtain ⟨l, h1, hx, hy, hf⟩ := hl
  obtain ⟨lib, cs, a1, a2, a3, a4, a5, a6, a7, a8⟩ := h.opened l h1
  have hsh : ∀ c p, c ∈ cs → RepOne C c p → c.2.shape = p.shape := by
    intro c p hc hr
    have hp := a2.chunky.placed c hc
    have h5 := hp.startLen
    have h6 := hp.shapeLen
    have h7 := hp.stopLen
    rw [hp.arr]
    unfold Piece.shape
    have hpad : padOf c.1 = if p.file = [] then 0 else p.overlap := by
      unfold padOf
      rw [← hr.file, ← hr.overlap]
      by_cases hpf : c.1.path = []
      · rw [if_pos hpf, if_pos]
        cases e : c.1.ctype with
        | all_null => rfl
        | specified => exact absurd hpf ((path_iff a2.chunky hc).2 e)
      · rw [if_neg hpf, if_neg]
        rw [(path_iff a2.chunky hc).1 hpf]; decide
    rw [← hr.start, ← hr.stop, ← hpad]
    congr 1
    apply ext_getD
    · rw [length_subVec (by omega)]; omega
    · intro d hd
      rw [getD_subVec (by omega), hp.getD_stop d]; omega
  obtain ⟨lib', fs', cs', e1, e2, e3, e4, e5, e6⟩ := swapAxes_ok hC hx hy a2 (fun c hc => by
    obtain ⟨p, p1, p2⟩ := a3.leftMem hc
    rw [hsh c p hc p2]; exact hf p p1)
  have hw : w.next C (.swap x y) = { w with cur := some { l with pieces := l.pieces.map fun p => p.swap x y } } := by unfold World.next; rw [h1]
  rw [hw]
  refine ⟨⟨some lib', fs'⟩, .unit, ?_, rfl, h.local_ (cs := cs) (l' := { l with pieces := l.pieces.map fun p => p.swap x y }) h1 e3
    (rep_swapAll hC hx hy e2 a3 a2.chunky.placed) (e4.trans a4) (e5.trans a5) a6 rfl _ (fun _ _ hn => hn) ?_ st.fs (fun _ _ _ => rfl) (by rw [← a5]; exact e6) ?_⟩
  · simp only [MState.step, a1, e1, Res.ok_bind]
  · intro p hp hf
    obtain ⟨p', q1, rfl⟩ := List.mem_map.1 hp
    exact a8 p' q1 hf
  · intro c hc _
    obtain ⟨p, p1, p2⟩ := a3.file_mem hc
    exact ⟨p.swap x y, List.mem_map.2 ⟨p, p1, rfl⟩, p2⟩

theorem step_move (hC : C.Ok) (h : WInv C S Z st w) {dir : Nat} (hl : Legal C w (.move dir)) :
    ∃ st' r, st.step C S (.move dir) = .ok (st', r) ∧ Answer C w (.move dir) r ∧ WInv C S Z st' (w.next C (.move dir)) := by
  obtain ⟨l, h1, hd, hdk⟩ := hl
  obtain ⟨lib, cs, a1, a2, a3, a4, a5, a6, a7, a8⟩ := h.opened l h1
  obtain ⟨lib', fs', e1, e2, e3, e4, e5, e6, e7, e8, e9⟩ := moveLib_ok hC a2 (dir := dir) (by rw [a5]; exact hd)
  rw [a5] at e5 e6 e8 e9
  have hw : w.next C (.move dir) =
      { w with
        cur := some { l with dir := dir }
        names := upd (upd w.names l.dir fun _ => False) dir fun n => w.names dir n ∨ w.names l.dir n } := by unfold World.next; rw [h1]
  rw [hw]
  refine ⟨⟨some lib', fs'⟩, .unit, ?_, rfl, fun e => (by cases e), fun l' e => ?_, fun d ps hps => ?_, fun d hdd ho => ?_, fun d n hn => ?_⟩
  · simp only [MState.step, a1, e1, Res.ok_bind]
  · cases e
    refine ⟨lib', cs, rfl, e2, a3, e3.trans a4, e4, a6, hdk, fun p hp hf => ?_⟩
    show upd (α := List Nat → Prop) _ dir _ dir p.file
    unfold upd; rw [if_pos rfl]
    exact Or.inr (a8 p hp hf)
  · obtain ⟨cs₀, g1, g2, g3⟩ := h.disk d ps hps
    have hdl : d ≠ l.dir := fun e => by subst e; have hps : w.disk l.dir = some ps := hps; rw [a7] at hps; cases hps
    have hdd : d ≠ dir := fun e => by subst e; have hps : w.disk d = some ps := hps; rw [hdk] at hps; cases hps
    refine ⟨cs₀, g1.frame fun n => e8 _ hdl hdd, g2, fun p hp hf => ?_⟩
    show upd (α := List Nat → Prop) (upd _ _ _) _ _ d p.file
    unfold upd; rw [if_neg hdd, if_neg hdl]
    exact g3 p hp hf
  · have hdd' : d ≠ dir := fun e => ho _ rfl e.symm
    by_cases hdl : d = l.dir
    · subst hdl; exact e5
    · show fs' (d, .index) = none
      rw [e8 _ hdl hdd']
      exact h.index d hdd fun l' e => by rw [h1] at e; cases e; exact fun e => hdl e.symm
  · show upd (α := List Nat → Prop) (upd _ _ _) _ _ d n
    unfold upd
    by_cases hdd : d = dir
    · subst hdd
      rw [if_pos rfl]
      rcases e9 n hn with g | g | ⟨c, c1, c2, c3⟩
      · exact Or.inl (h.names _ _ g)
      · exact Or.inr (h.names _ _ g)
      · obtain ⟨p, p1, p2⟩ := a3.file_mem c1
        subst c3
        right
        rw [← p2]
        exact a8 p p1 (by rw [p2]; exact c2)
    · rw [if_neg hdd]
      by_cases hdl : d = l.dir
      · subst hdl; exact absurd (e6 n) hn
      · rw [if_neg hdl]
        have hn : fs' (d, .chunk n) ≠ none := hn
        rw [e8 _ hdl hdd] at hn
        exact h.names _ _ hn

theorem step_clear (hC : C.Ok) (h : WInv C S Z st w) (hl : Legal C w .clear) :
    ∃ st' r, st.step C S .clear = .ok (st', r) ∧ Answer C w .clear r ∧ WInv C S Z st' (w.next C .clear) := by
  obtain ⟨l, h1⟩ := hl
  obtain ⟨lib, cs, a1, a2, a3, a4, a5, a6, a7, a8⟩ := h.opened l h1
  obtain ⟨lib', fs', e1, e2, e3, e4, e5, e6⟩ := clearLib_ok hC a2
  rw [a5] at e5 e6
  have hw : w.next C .clear = { w with cur := some { l with pieces := [] }, names := upd w.names l.dir fun _ => False } := by unfold World.next; rw [h1]
  rw [hw]
  refine ⟨⟨some lib', fs'⟩, .unit, ?_, rfl, fun e => (by cases e), fun l' e => ?_, fun d ps hps => ?_, fun d hdd ho => ?_, fun d n hn => ?_⟩
  · simp only [MState.step, a1, e1, Res.ok_bind]
  · cases e
    exact ⟨lib', [], rfl, e2, .nil, e3.trans a4, e4.trans a5, a6, a7, fun p hp => (by cases hp)⟩
  · obtain ⟨cs₀, g1, g2, g3⟩ := h.disk d ps hps
    have hdl : d ≠ l.dir := fun e => by subst e; have hps : w.disk l.dir = some ps := hps; rw [a7] at hps; cases hps
    refine ⟨cs₀, g1.frame fun n => e6 _ hdl, g2, fun p hp hf => ?_⟩
    show upd (α := List Nat → Prop) _ _ _ d p.file
    unfold upd; rw [if_neg hdl]
    exact g3 p hp hf
  · have hdl : d ≠ l.dir := fun e => ho _ rfl e.symm
    show fs' (d, .index) = none
    rw [e6 _ hdl]
    exact h.index d hdd fun l' e => by rw [h1] at e; cases e; exact fun e => hdl e.symm
  · show upd (α := List Nat → Prop) _ _ _ d n
    unfold upd
    by_cases hdl : d = l.dir
    · subst hdl; exact absurd (e5 _) hn
    · rw [if_neg hdl]
      have hn : fs' (d, .chunk n) ≠ none := hn
      rw [e6 _ hdl] at hn
      exact h.names _ _ hn

theorem step_import (hC : C.Ok) (h : WInv C S Z st w) {dir : Nat} {mv : Bool} (hl : Legal C w (.import dir mv)) :
    ∃ st' r, st.step C S (.import dir mv) = .ok (st', r) ∧ Answer C w (.import dir mv) r ∧ WInv C S Z st' (w.next C (.import dir mv)) := by
  obtain ⟨l, ps, h1, hi⟩ := hl
  obtain ⟨lib, cs, a1, a2, a3, a4, a5, a6, a7, a8⟩ := h.opened l h1
  obtain ⟨cs', b1, b2, b3⟩ := h.disk dir ps hi.disk
  have hne := hi.ne
  have himp : ImpOk C st.fs lib.idx.dir dir lib.idx.nextId cs cs' := by
    refine ⟨by rw [a5]; exact hi.ne, fun c hc => ?_, by rw [a4, b2.1]; exact hi.small, fun c hc c' hc' => ?_, fun c hc hp => ⟨?_, fun c' hc' e => ?_⟩⟩
    · obtain ⟨p, p1, p2⟩ := a3.leftMem hc
      rw [p2.id, a4]; exact hi.fresh p p1
    · obtain ⟨p, p1, p2⟩ := a3.leftMem hc
      obtain ⟨p', q1, q2⟩ := b2.leftMem hc'
      rw [p2.start, p2.stop, q2.start, q2.stop]
      exact hi.disj p p1 p' q1
    · obtain ⟨p, p1, p2⟩ := a3.leftMem hc
      cases hf : st.fs (dir, .chunk c.1.path) with
      | none => rfl
      | some f =>
        have := h.names dir c.1.path (by rw [hf]; simp)
        rw [p2.file] at hp this
        exact absurd this (hi.files p p1 hp)
    · obtain ⟨p, p1, p2⟩ := a3.leftMem hc
      obtain ⟨p', q1, q2⟩ := b2.leftMem hc'
      have hfe : p.file = p'.file := by rw [← p2.file, ← q2.file]; exact e
      rw [p2.file] at hp
      exact hi.files p p1 hp (by rw [hfe]; exact b3 p' q1 (by rw [← hfe]; exact hp))
  obtain ⟨lib', fs', e1, e2, e3, e4, e5, e6, e7, e8, e9⟩ := importLib_ok hC a2 b1 himp mv
  rw [a5] at e7 e9
  have hgd : (w.disk dir).getD [] = ps := by rw [hi.disk]; rfl
  have hw : w.next C (.import dir mv) =
    { cur := some ⟨l.dir, l.next + ps.length, l.pieces ++ renumbered l.next ps⟩
      disk := if mv then upd w.disk dir none else w.disk
      names := upd (if mv then upd w.names dir fun _ => False else w.names) l.dir fun n => w.names l.dir n ∨ w.names dir n } := by unfold World.next; rw [h1]; simp only [hgd]
  rw [hw]
  have hdiskd : ∀ {d ps'}, (if mv then upd w.disk dir none else w.disk) d = some ps' → w.disk d = some ps' ∧ (mv = true → d ≠ dir) := by
    intro d ps' hps
    cases mv
    · exact ⟨hps, fun e => (by cases e)⟩
    · simp only [if_true] at hps
      unfold upd at hps
      split at hps
      · cases hps
      · exact ⟨hps, fun _ => (by assumption)⟩
  refine ⟨⟨some lib', fs'⟩, .unit, ?_, rfl, fun e => (by cases e), fun l' e => ?_, fun d ps' hps => ?_, fun d hdd ho => ?_, fun d n hn => ?_⟩
  · simp only [MState.step, a1, e1, Res.ok_bind]
  · cases e
    refine ⟨lib', _, rfl, e2, ?_, ?_, e4.trans a5, hi.small, ?_, fun p hp hf => ?_⟩
    · rw [a4]; exact a3.app (rep_numbered b2)
    · rw [e3, a4, b2.1]
    · show (if mv then upd w.disk dir none else w.disk) l.dir = none
      cases mv
      · exact a7
      · simp only [if_true]; unfold upd; rw [if_neg (Ne.symm hi.ne)]; exact a7
    · show upd (α := List Nat → Prop) _ _ _ l.dir p.file
      unfold upd; rw [if_pos rfl]
      rcases List.mem_append.1 hp with hp | hp
      · exact Or.inl (a8 p hp hf)
      · right
        unfold renumbered at hp
        obtain ⟨q, q1, rfl⟩ := List.mem_map.1 hp
        rw [List.mem_zipIdx_iff_getElem?] at q1
        exact b3 q.1 (List.mem_of_getElem? q1) hf
  · obtain ⟨h2, h3⟩ := hdiskd hps
    obtain ⟨cs₀, g1, g2, g3⟩ := h.disk d ps' h2
    have hdl : d ≠ l.dir := fun e => by subst e; rw [a7] at h2; cases h2
    by_cases hdd : d = dir
    · subst hdd
      have hmf : mv = false := by cases mv; rfl; exact absurd rfl (h3 rfl)
      subst hmf
      have : ps' = ps := by have := hi.disk; rw [h2] at this; cases this; rfl
      subst this
      refine ⟨cs', e5 rfl, b2, fun p hp hf => ?_⟩
      show upd (α := List Nat → Prop) _ _ _ d p.file
      unfold upd; rw [if_neg hdl]
      exact b3 p hp hf
    · refine ⟨cs₀, g1.frame fun n => e7 _ hdl hdd, g2, fun p hp hf => ?_⟩
      show upd (α := List Nat → Prop) _ _ _ d p.file
      unfold upd; rw [if_neg hdl]
      cases mv
      · exact g3 p hp hf
      · simp only [if_true]; rw [if_neg hdd]; exact g3 p hp hf
  · have hdl : d ≠ l.dir := fun e => ho _ rfl e.symm
    show fs' (d, .index) = none
    by_cases hddir : d = dir
    · subst hddir
      cases mv
      · have hdd : w.disk d = none := hdd
        rw [hi.disk] at hdd; cases hdd
      · exact e6 rfl _
    · rw [e7 _ hdl hddir]
      refine h.index d ?_ fun l' e => by rw [h1] at e; cases e; exact fun e => hdl e.symm
      cases mv
      · exact hdd
      · have hdd : upd w.disk dir none d = none := hdd
        unfold upd at hdd; rwa [if_neg hddir] at hdd
  · show upd (α := List Nat → Prop) _ _ _ d n
    unfold upd
    by_cases hdl : d = l.dir
    · subst hdl
      rw [if_pos rfl]
      rcases e9 n hn with g | g
      · exact Or.inr (h.names _ _ g)
      · exact Or.inl (h.names _ _ g)
    · rw [if_neg hdl]
      have hn : fs' (d, .chunk n) ≠ none := hn
      by_cases hddir : d = dir
      · subst hddir
        cases mv
        · exact h.names _ _ (e8 _ hn)
        · exact absurd (e6 rfl _) hn
      · rw [e7 _ hdl hddir] at hn
        cases mv
        · exact h.names _ _ hn
        · simp only [if_true]; rw [if_neg hddir]; exact h.names _ _ hn

/-! ### Queries and loops -/

theorem IsHull.unique {dims : Nat} {ps : List Piece} {lo hi lo' hi' : List Nat} (h : IsHull dims ps lo hi) (h' : IsHull dims ps lo' hi') : lo' = lo ∧ hi' = hi := by
  have l1 := h.loLen
  have l2 := h.hiLen
  have l3 := h'.loLen
  have l4 := h'.hiLen
  constructor
  · apply ext_getD (by omega)
    intro d hd
    obtain ⟨p, p1, p2⟩ := h.loAtt d (by omega)
    obtain ⟨q, q1, q2⟩ := h'.loAtt d (by omega)
    have := (h.encl d (by omega) q q1).1
    have := (h'.encl d (by omega) p p1).1
    omega
  · apply ext_getD (by omega)
    intro d hd
    obtain ⟨p, p1, p2⟩ := h.hiAtt d (by omega)
    obtain ⟨q, q1, q2⟩ := h'.hiAtt d (by omega)
    have := (h.encl d (by omega) q q1).2
    have := (h'.encl d (by omega) p p1).2
    omega

theorem hull_pieces {cs : List (Meta × Arr)} {ps : List Piece} {lo hi : List Nat} (hch : Chunky C cs) (hr : Rep C cs ps) (hne : cs ≠ [])
    (h : Hull C.dims (cs.map Prod.fst) lo hi) : IsHull C.dims ps lo hi := by
  obtain ⟨l1, l2, l3⟩ := h.box
  have hm : ∀ c ∈ cs, c.1 ∈ cs.map Prod.fst := fun c hc => List.mem_map.2 ⟨c, hc, rfl⟩
  obtain ⟨c₀, hc₀⟩ := List.exists_mem_of_ne_nil cs hne
  have encl : ∀ c ∈ cs, ∀ d < C.dims, lo.getD d 0 ≤ c.1.start.getD d 0 ∧ c.1.stop.getD d 0 ≤ hi.getD d 0 := fun c hc d hd =>
    h.encl c.1 (hm c hc) d (by rw [(hch.placed c hc).startLen]; exact hd)
  have toPiece : ∀ {c : Meta × Arr}, c ∈ cs → ∃ p ∈ ps, p.start = c.1.start ∧ p.stop = c.1.stop := fun hc => by
    obtain ⟨p, p1, p2⟩ := hr.leftMem hc
    exact ⟨p, p1, p2.start.symm, p2.stop.symm⟩
  refine ⟨l1, l2, fun d hd p hp => ?_, fun d hd => ?_, fun d hd => ?_⟩
  · obtain ⟨c, hc, hcp⟩ := hr.rightMem hp
    rw [← hcp.start, ← hcp.stop]; exact encl c hc d hd
  · by_contra hno
    have hlt : ∀ c ∈ cs, lo.getD d 0 < c.1.start.getD d 0 := fun c hc => by
      obtain ⟨p, p1, p2, _⟩ := toPiece hc
      have := (encl c hc d hd).1
      have : c.1.start.getD d 0 ≠ lo.getD d 0 := fun e => hno ⟨p, p1, by rw [p2]; exact e⟩
      omega
    have := h.least (lo.set d (lo.getD d 0 + 1)) hi (fun m hm' e he => ?_) d (by omega)
    · rw [getD_set] at this
      have h1 := this.1
      rw [if_pos ⟨rfl, by omega⟩] at h1
      omega
    · obtain ⟨c, hc, rfl⟩ := List.mem_map.1 hm'
      rw [(hch.placed c hc).startLen] at he
      have h1 := encl c hc e he
      have h2 := hlt c hc
      refine ⟨?_, h1.2⟩
      rw [getD_set]
      split
      · rename_i hh; obtain ⟨rfl, _⟩ := hh; omega
      · exact h1.1
  · by_contra hno
    have hlt : ∀ c ∈ cs, c.1.stop.getD d 0 < hi.getD d 0 := fun c hc => by
      obtain ⟨p, p1, _, p2⟩ := toPiece hc
      have := (encl c hc d hd).2
      have : c.1.stop.getD d 0 ≠ hi.getD d 0 := fun e => hno ⟨p, p1, by rw [p2]; exact e⟩
      omega
    have := h.least lo (hi.set d (hi.getD d 0 - 1)) (fun m hm' e he => ?_) d (by omega)
    · rw [getD_set] at this
      have h1 := this.2
      rw [if_pos ⟨rfl, by omega⟩] at h1
      have := hlt c₀ hc₀
      omega
    · obtain ⟨c, hc, rfl⟩ := List.mem_map.1 hm'
      rw [(hch.placed c hc).startLen] at he
      have h1 := encl c hc e he
      have h2 := hlt c hc
      refine ⟨h1.1, ?_⟩
      rw [getD_set]
      split
      · rename_i hh; obtain ⟨rfl, _⟩ := hh; omega
      · exact h1.2

theorem covered_iff {cs : List (Meta × Arr)} {ps : List Piece} (hr : Rep C cs ps) (i : List Nat) : Covered ps i ↔ ∃ c ∈ cs, InBox c.1.start c.1.stop i := by
  constructor
  · rintro ⟨p, hp, hb⟩
    obtain ⟨c, hc, hcp⟩ := hr.rightMem hp
    exact ⟨c, hc, by rw [hcp.start, hcp.stop]; exact hb⟩
  · rintro ⟨c, hc, hb⟩
    obtain ⟨p, hp, hcp⟩ := hr.leftMem hc
    exact ⟨p, hp, by rw [← hcp.start, ← hcp.stop]; exact hb⟩

theorem filled_iff {cs : List (Meta × Arr)} {ps : List Piece} (hr : Rep C cs ps) (lo hi : List Nat) :
    Filled ps lo hi ↔ ∀ i, InBox lo hi i → ∃ m ∈ cs.map Prod.fst, InBox m.start m.stop i := by
  have : ∀ i, (∃ m ∈ cs.map Prod.fst, InBox m.start m.stop i) ↔ ∃ c ∈ cs, InBox c.1.start c.1.stop i := fun i => by simp
  unfold Filled
  constructor
  · intro h i hi'; rw [this]; exact (covered_iff hr i).1 (h i hi')
  · intro h i hi'; rw [covered_iff hr]; exact (this i).1 (h i hi')

theorem boxVolume_eq {lo hi : List Nat} (h : lo.length = hi.length) : (elemLoop lo hi).length = boxVolume lo hi := C01_number_of_calls lo hi h

/-- The answers of the queries. -/
theorem shape_facts {cs : List (Meta × Arr)} {ps : List Piece} (hch : Chunky C cs) (hr : Rep C cs ps) (hv : ∀ lo hi, IsHull C.dims ps lo hi → boxVolume lo hi < 2 ^ 64)
    {start stop shape : List Nat} (h : ShapeOf C (cs.map Prod.fst) start stop shape) :
    (ps = [] → start = List.replicate C.dims 0 ∧ stop = List.replicate C.dims 0 ∧ shape = List.replicate C.dims 0) ∧
    (ps ≠ [] → IsHull C.dims ps start stop ∧ (Filled ps start stop → shape = subVec stop start) ∧ (¬ Filled ps start stop → shape = List.replicate C.dims 0)) := by
  have hps : ps = [] ↔ cs = [] := by rw [← List.length_eq_zero_iff, ← hr.1, List.length_eq_zero_iff]
  constructor
  · intro he
    exact h.none (by rw [hps.1 he]; rfl)
  · intro he
    have hne : cs ≠ [] := fun e => he (hps.2 e)
    have hne' : cs.map Prod.fst ≠ [] := fun e => hne (List.map_eq_nil_iff.1 e)
    have hull := hull_pieces hch hr hne (h.hull hne')
    have hvol := hv _ _ hull
    rw [← boxVolume_eq (by rw [hull.loLen, hull.hiLen])] at hvol
    obtain ⟨s1, s2⟩ := h.shape hne' hvol
    exact ⟨hull, fun hf => s1 ((filled_iff hr _ _).1 hf), fun hf => s2 (fun e => hf ((filled_iff hr _ _).2 e))⟩

theorem volume_zero (hC : C.Ok) : numberElements (List.replicate C.dims 0) = 0 := by
  have := hC.dims
  unfold numberElements
  cases h : C.dims with
  | zero => omega
  | succ n =>
    rw [List.replicate_succ, List.foldl_cons, Nat.mul_zero, Nat.zero_mod]
    have : ∀ l : List Nat, l.foldl (fun a x => a * x % U64) 0 = 0 := fun l => by
      induction l with
      | nil => rfl
      | cons x l ih => rw [List.foldl_cons, Nat.zero_mul, Nat.zero_mod]; exact ih
    exact this _

theorem volume_box {dims : Nat} {lo hi : List Nat} (h1 : lo.length = dims) (h2 : hi.length = dims) (h : boxVolume lo hi < 2 ^ 64) : numberElements (subVec hi lo) = boxVolume lo hi := by
  have e1 : subVec hi lo = List.zipWith (fun x y => y - x) lo hi := by
    apply ext_getD
    · rw [length_subVec (by omega)]; simp [h1, h2]
    · intro d hd
      rw [length_subVec (by omega)] at hd
      rw [getD_subVec (by omega), Tree.getD_zipWith (by omega) (by omega)]
  unfold numberElements
  have := foldl_mulmod (List.zipWith (fun x y => y - x) lo hi) 1
  rw [e1, show (1 : Nat) = 1 % U64 from rfl, this, Nat.one_mul]
  exact Nat.mod_eq_of_lt h

theorem step_query (hC : C.Ok) (h : WInv C S Z st w) {q : Query} (hl : Legal C w (.query q)) :
    ∃ st' r, st.step C S (.query q) = .ok (st', r) ∧ Answer C w (.query q) r ∧ WInv C S Z st' (w.next C (.query q)) := by
  obtain ⟨l, h1, hv⟩ := hl
  obtain ⟨lib, cs, a1, a2, a3, a4, a5, a6, a7, a8⟩ := h.opened l h1
  obtain ⟨x, e1, e2, e3, e4, e5⟩ := ensure_ok hC a2
  have hw : w.next C (.query q) = { w with cur := some l } := by unfold World.next; cases w; simp at h1; subst h1; rfl
  rw [hw]
  obtain ⟨f1, f2⟩ := shape_facts a2.chunky a3 hv e5
  have hinv : WInv C S Z ⟨some ⟨lib.cc, x⟩, st.fs⟩ { w with cur := some l } :=
    h.local_ h1 e2 a3 (e3.trans a4) (e4.trans a5) a6 rfl _ (fun _ _ hn => hn) a8 st.fs (fun _ _ _ => rfl) (.refl _) fun c hc _ => a3.file_mem hc
  have hans : ∀ {P : LibSpec → Prop}, P l → ∀ l', w.cur = some l' → P l' := fun hp l' hl' => by rw [h1] at hl'; cases hl'; exact hp
  cases q with
  | start =>
    refine ⟨_, .ind x.start, ?_, hans ⟨fun he => (f1 he).1, fun he => ⟨_, (f2 he).1⟩⟩, hinv⟩
    simp only [MState.step, a1, Index.getStart, e1, Res.ok_bind]
  | stop =>
    refine ⟨_, .ind x.stop, ?_, hans ⟨fun he => (f1 he).2.1, fun he => ⟨_, (f2 he).1⟩⟩, hinv⟩
    simp only [MState.step, a1, Index.getStop, e1, Res.ok_bind]
  | shape =>
    refine ⟨_, .ind x.shape, ?_, hans ⟨fun he => (f1 he).2.2, fun he => ⟨_, _, f2 he⟩⟩, hinv⟩
    simp only [MState.step, a1, Index.getShape, e1, Res.ok_bind]
  | volume =>
    refine ⟨_, .num (numberElements x.shape), ?_, hans ⟨fun he => ?_, fun he => ⟨_, _, (f2 he).1, fun hf => ?_, fun hf => ?_⟩⟩, hinv⟩
    · simp only [MState.step, a1, Index.getVolume, Index.getShape, e1, Res.ok_bind]
    · rw [(f1 he).2.2]; exact volume_zero hC
    · have hull := (f2 he).1
      rw [(f2 he).2.1 hf]; exact volume_box hull.loLen hull.hiLen (hv _ _ hull)
    · rw [(f2 he).2.2 hf]; exact volume_zero hC

theorem loop_answer {cs : List (Meta × Arr)} {ps : List Piece} (hr : Rep C cs ps) {lo hi : List Nat} {calls : List (List Nat × List Nat)} (h : AllCalls C lo hi cs calls) :
    LoopAnswer ps (fun i => InBox lo hi i ∧ Covered ps i) calls := by
  refine ⟨h.nodup, fun i => by show _ ↔ InBox lo hi i ∧ Covered ps i; rw [h.mem, covered_iff hr], fun c hc p hp hb => ?_⟩
  obtain ⟨k, hk, hkp⟩ := hr.rightMem hp
  obtain ⟨v, g1, g2⟩ := h.val c hc k hk (by rw [hkp.start, hkp.stop]; exact hb)
  obtain ⟨v', k1, k2⟩ := hkp.val c.1 hb
  rw [g1] at k1; cases k1
  exact k2.trans g2

theorem step_loop (hC : C.Ok) (h : WInv C S Z st w) {lo hi : List Nat} (hl : Legal C w (.loop lo hi)) :
    ∃ st' r, st.step C S (.loop lo hi) = .ok (st', r) ∧ Answer C w (.loop lo hi) r ∧ WInv C S Z st' (w.next C (.loop lo hi)) := by
  obtain ⟨l, h1, hv, hpln⟩ := hl
  obtain ⟨lib, cs, a1, a2, a3, a4, a5, a6, a7, a8⟩ := h.opened l h1
  obtain ⟨lib', fs', calls, e1, e2, e3, e4, e5⟩ := loopRange_ok hC a2 hv (fun c hc => by
    obtain ⟨p, p1, p2⟩ := a3.leftMem hc
    exact p2.plain a2.chunky hc (hpln p p1))
  have hw : w.next C (.loop lo hi) = { w with cur := some l } := by unfold World.next; cases w; simp at h1; subst h1; rfl
  rw [hw]
  refine ⟨⟨some lib', fs'⟩, .calls calls, ?_, fun l' hl' => ?_, h.local_ h1 e2 a3 (by rw [e3]; exact a4) (by rw [e3]; exact a5) a6 rfl _ (fun _ _ hn => hn) a8 st.fs (fun _ _ _ => rfl)
    (by rw [← a5]; exact e4) fun c hc _ => a3.file_mem hc⟩
  · simp only [MState.step, a1, e1, Res.ok_bind]
  · rw [h1] at hl'; cases hl'
    exact loop_answer a3 e5

theorem step_loopAll (hC : C.Ok) (h : WInv C S Z st w) (hl : Legal C w .loopAll) :
    ∃ st' r, st.step C S .loopAll = .ok (st', r) ∧ Answer C w .loopAll r ∧ WInv C S Z st' (w.next C .loopAll) := by
  obtain ⟨l, hi, h1, hh, hv, hf, hpln⟩ := hl
  obtain ⟨lib, cs, a1, a2, a3, a4, a5, a6, a7, a8⟩ := h.opened l h1
  obtain ⟨x, f1, f2, f3, f4, f5⟩ := ensure_ok hC a2
  have hps : l.pieces ≠ [] := fun e => by
    obtain ⟨p, hp, _⟩ := hh.loAtt 0 hC.dims
    rw [e] at hp; cases hp
  obtain ⟨g1, g2⟩ := shape_facts a2.chunky a3 (fun lo' hi' hh' => by obtain ⟨rfl, rfl⟩ := hh.unique hh'; exact hv) f5
  obtain ⟨hull, g3, _⟩ := g2 hps
  obtain ⟨e1, e2⟩ := hh.unique hull
  rw [e1, e2] at g3
  have hsh : x.shape = hi := by
    rw [g3 hf]
    apply ext_getD
    · rw [length_subVec (by rw [hh.loLen, hh.hiLen])]
    · intro d hd
      rw [getD_subVec (by rw [hh.loLen, hh.hiLen]), List.getD_eq_getElem?_getD (l := List.replicate _ _), List.getElem?_replicate]
      split <;> simp
  have hreg : RegOkay C (List.replicate C.dims 0) hi := by
    refine ⟨by simp, hh.hiLen, fun d hd => ?_⟩
    obtain ⟨p, hp, he⟩ := hh.hiAtt d hd
    obtain ⟨c, hc, hcp⟩ := a3.rightMem hp
    have hpl := a2.chunky.placed c hc
    have k1 := hpl.lt d hd
    have k2 := hpl.pos d hd
    have k3 := hpl.getD_stop d
    rw [← he, ← hcp.stop, List.getD_eq_getElem?_getD (l := List.replicate _ _), List.getElem?_replicate, if_pos hd]
    simp only [Option.getD_some]
    omega
  obtain ⟨lib', fs', calls, e3, e4, e5, e6, e7⟩ := loopRange_ok hC f2 hreg (fun c hc => by
    obtain ⟨p, p1, p2⟩ := a3.leftMem hc
    exact p2.plain a2.chunky hc (hpln p p1))
  have hw : w.next C .loopAll = { w with cur := some l } := by unfold World.next; cases w; simp at h1; subst h1; rfl
  rw [hw]
  have e5' : lib'.idx = x := e5
  refine ⟨⟨some lib', fs'⟩, .calls calls, ?_, fun l' hl' => ?_, h.local_ h1 e4 a3 (by rw [e5']; exact f3.trans a4) (by rw [e5']; exact f4.trans a5) a6 rfl _ (fun _ _ hn => hn) a8 st.fs (fun _ _ _ => rfl)
    (by rw [← a5, ← f4]; exact e6) fun c hc _ => a3.file_mem hc⟩
  · simp only [MState.step, a1, Lib.indexLoopAll, Index.getShape, f1, Res.ok_bind]
    rw [hsh, e3]; rfl
  · rw [h1] at hl'; cases hl'
    obtain ⟨b1, b2, b3⟩ := loop_answer a3 e7
    refine ⟨b1, fun i => ?_, b3⟩
    rw [b2]
    refine ⟨fun hb => hb.2, fun hc => ⟨?_, hc⟩⟩
    obtain ⟨p, hp, hb⟩ := hc
    have hpl : p.start.length = C.dims := by
      obtain ⟨c, hc, hcp⟩ := a3.rightMem hp
      rw [← hcp.start]; exact (a2.chunky.placed c hc).startLen
    have hil : i.length = C.dims := by rw [hb.1]; exact hpl
    refine ⟨by rw [hh.loLen]; exact hil, by rw [hh.hiLen]; exact hil, fun d hd => ?_⟩
    have k1 := hb.2.2 d hd
    have k2 := hh.encl d (by omega) p hp
    omega

theorem stepW_ok (hC : C.Ok) (h : WInv C S Z st w) (op : LOp) (hl : Legal C w op) :
    ∃ st' r, st.step C S op = .ok (st', r) ∧ Answer C w op r ∧ WInv C S Z st' (w.next C op) := by
  cases op with
  | query => exact step_query hC h hl
  | loop => exact step_loop hC h hl
  | loopAll => exact step_loopAll hC h hl
  | «open» => exact step_open hC h hl
  | close => exact step_close hC h hl
  | register => exact step_register hC h hl
  | append => exact step_append hC h hl
  | get => exact step_get hC h hl
  | fill => exact step_fill hC h hl
  | flush => exact step_flush hC h hl
  | swap => exact step_swap hC h hl
  | move => exact step_move hC h hl
  | clear => exact step_clear hC h hl
  | «import» => exact step_import hC h hl
end steps

theorem runW_ok (hC : C.Ok) : ∀ (ops : List LOp) {st : MState} {w : World}, WInv C S Z st w → AllLegal C w ops →
    ∃ st' rs, st.run C S ops = .ok (st', rs) ∧ AllAnswer C w ops rs ∧ WInv C S Z st' (w.run C ops)
  | [], st, _, h, _ => ⟨st, [], rfl, trivial, h⟩
  | op :: ops, st, w, h, hl => by
      obtain ⟨st1, r, e1, e2, e3⟩ := stepW_ok hC h op hl.1
      obtain ⟨st2, rs, g1, g2, g3⟩ := runW_ok hC ops e3 hl.2
      exact ⟨st2, r :: rs, by simp only [MState.run, e1, g1, Res.ok_bind], ⟨e2, g2⟩, g3⟩

theorem WInv.init {fs : FS} (hfs : ∀ d, fs (d, .index) = none) : WInv C S Z ⟨none, fs⟩ (World.init fs) :=
  ⟨fun _ => rfl, fun l e => (by cases e), fun d ps e => (by cases e), fun d _ _ => hfs d, fun _ _ h => h⟩

end Verif.Dist
