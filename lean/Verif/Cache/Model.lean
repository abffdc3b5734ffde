import Verif.Base
import Verif.Cache.DLL
/-
Model of eisvogel/core/impl/Cache.hh and Cache.hxx, at the level of the linked list of cache elements.

`CacheElement*` is the position of the element in `m_storage` (`Option Nat`, `none` is `nullptr`); the storage never moves
after construction (`reserve`, Cache.hxx 10).
-/
namespace Verif.Cache
open Verif Verif.DLL

variable {K V : Type} [DecidableEq K]

/-- Cache.hh 48-60 and 70-75. `accessor` is the `std::unordered_map`, as an association list in some order. -/
structure Cache (K V : Type) where
  depth : Nat
  accessor : List (K × Nat)
  payload : Nat → V
  index : Nat → K
  occupied : Nat → Bool
  next : Nat → Option Nat
  prev : Nat → Option Nat
  oldest : Option Nat
  newest : Option Nat

/-- `std::unordered_map` operations: `find`, `erase`, `operator[] =`. -/
def mFind (m : List (K × Nat)) (k : K) : Option Nat := (m.find? fun p => p.1 = k).map Prod.snd
def mErase (m : List (K × Nat)) (k : K) : List (K × Nat) := m.filter fun p => p.1 ≠ k
def mSet (m : List (K × Nat)) (k : K) (x : Nat) : List (K × Nat) := (k, x) :: mErase m k

/-- Cache.hxx 5-33, the constructor: `depth` elements linked in storage order. `front()` of an empty vector is undefined. -/
def construct (depth : Nat) (v0 : V) (k0 : K) : Res (Cache K V) :=
  if depth = 0 then .ub
  else .ok {
    depth
    accessor := []
    payload := fun _ => v0
    index := fun _ => k0
    occupied := fun _ => false
    next := fun i => if i + 1 < depth then some (i + 1) else none
    prev := fun i => if i = 0 then none else some (i - 1)
    oldest := some 0
    newest := some (depth - 1) }

/-- Cache.hxx 68-70 `has_free_slot`. -/
def hasFreeSlot (c : Cache K V) : Bool := decide (c.accessor.length < c.depth)

/-- Cache.hxx 73-75 `contains`. -/
def contains (c : Cache K V) (k : K) : Bool := (mFind c.accessor k).isSome

/-- Cache.hxx 78-87 `contained_elements`. -/
def containedElements (c : Cache K V) : List K := c.accessor.map Prod.fst

/-- Cache.hxx 136-162 `mark_as_oldest`. -/
def markAsOldest (c : Cache K V) (e : Nat) : Res (Cache K V) :=
  match c.prev e with
  | none => .ok c
  | some p =>
    let next1 := upd c.next p (c.next e)
    let r := match next1 e with
      | some n => (upd c.prev n (c.prev e), c.newest)
      | none => (c.prev, c.prev e)
    let prev2 := upd r.1 e none
    let next2 := upd next1 e c.oldest
    match c.oldest with
    | none => .ub
    | some o => .ok { c with next := next2, prev := upd prev2 o (some e), newest := r.2, oldest := some e }

/-- Cache.hxx 164-190 `mark_as_newest`. -/
def markAsNewest (c : Cache K V) (e : Nat) : Res (Cache K V) :=
  match c.next e with
  | none => .ok c
  | some n =>
    let prev1 := upd c.prev n (c.prev e)
    let r := match prev1 e with
      | some p => (upd c.next p (c.next e), c.oldest)
      | none => (c.next, c.next e)
    let next2 := upd r.1 e none
    let prev2 := upd prev1 e c.newest
    match c.newest with
    | none => .ub
    | some m => .ok { c with prev := prev2, next := upd next2 m (some e), oldest := r.2, newest := some e }

/-- Cache.hxx 45-65 `insert_ref_no_overwrite`: returns the location of the payload reference. -/
def insertRef (c : Cache K V) (k : K) : Res (Cache K V × Nat) :=
  (Res.assert (!contains c k)).bind fun _ =>
  match c.oldest with
  | none => .ub
  | some loc =>
    (Res.assert (!c.occupied loc)).bind fun _ =>
    (markAsNewest { c with index := upd c.index loc k, occupied := upd c.occupied loc true } loc).bind fun c1 =>
    .ok ({ c1 with accessor := mSet c1.accessor k loc }, loc)

/-- Writing through a payload reference. -/
def store (c : Cache K V) (loc : Nat) (v : V) : Cache K V := { c with payload := upd c.payload loc v }

/-- Cache.hxx 35-42 `insert_no_overwrite`. -/
def insertNoOverwrite (c : Cache K V) (k : K) (v : V) : Res (Cache K V) :=
  (insertRef c k).bind fun r => .ok (store r.1 r.2 v)

/-- Cache.hxx 90-98 `get`; `unordered_map::at` throws. Returns the location of the payload reference. -/
def get (c : Cache K V) (k : K) : Res (Cache K V × Nat) :=
  match mFind c.accessor k with
  | none => .throw
  | some e => (markAsNewest c e).bind fun c1 => .ok (c1, e)

/-- Cache.hxx 101-114 `evict_oldest_from_full_cache`. -/
def evictOldest (c : Cache K V) : Res (Cache K V × Nat) :=
  (Res.assert (!hasFreeSlot c)).bind fun _ =>
  match c.oldest with
  | none => .ub
  | some e =>
    let c1 : Cache K V := { c with occupied := upd c.occupied e false }
    .ok ({ c1 with accessor := mErase c1.accessor (c1.index e) }, e)

/-- Cache.hxx 117-132 `evict`. -/
def evict (c : Cache K V) (k : K) : Res (Cache K V × Nat) :=
  (Res.assert (contains c k)).bind fun _ =>
  match mFind c.accessor k with
  | none => .throw
  | some e =>
    (markAsOldest { c with occupied := upd c.occupied e false } e).bind fun c1 =>
    .ok ({ c1 with accessor := mErase c1.accessor (c1.index e) }, e)

/-- Cache.hxx 194-203, 208-217: the elements a pointer walk visits. -/
def walk (nxt : Nat → Option Nat) : Nat → Option Nat → Option (List Nat)
  | _, none => some []
  | 0, some _ => none
  | fuel + 1, some x => (walk nxt fuel (nxt x)).map (x :: ·)

/-- Cache.hxx 192-204 `loop_over_elements_old_to_new`: the payloads the worker is called with. -/
def oldToNew (c : Cache K V) : Res (List V) :=
  (Res.ofLoop (walk c.next (c.depth + 1) c.oldest)).bind fun l => .ok ((l.filter c.occupied).map c.payload)

/-- Cache.hxx 206-218 `loop_over_elements_new_to_old`. -/
def newToOld (c : Cache K V) : Res (List V) :=
  (Res.ofLoop (walk c.prev (c.depth + 1) c.newest)).bind fun l => .ok ((l.filter c.occupied).map c.payload)

/-- The calls a client can make; `put` is `get(k) = v`, i.e. writing through the returned reference. -/
inductive Op (K V : Type) where
  | hasFree
  | contains (k : K)
  | contained
  | insert (k : K) (v : V)
  | get (k : K)
  | put (k : K) (v : V)
  | evict (k : K)
  | evictOldest
  | oldToNew
  | newToOld

/-- What a call returns. -/
inductive Out (K V : Type) where
  | unit
  | bool (b : Bool)
  | keys (l : List K)
  | val (v : V)
  | vals (l : List V)

def step (c : Cache K V) : Op K V → Res (Cache K V × Out K V)
  | .hasFree => .ok (c, .bool (hasFreeSlot c))
  | .contains k => .ok (c, .bool (contains c k))
  | .contained => .ok (c, .keys (containedElements c))
  | .insert k v => (insertNoOverwrite c k v).bind fun c1 => .ok (c1, .unit)
  | .get k => (get c k).bind fun r => .ok (r.1, .val (r.1.payload r.2))
  | .put k v => (get c k).bind fun r => .ok (store r.1 r.2 v, .unit)
  | .evict k => (evict c k).bind fun r => .ok (r.1, .val (r.1.payload r.2))
  | .evictOldest => (evictOldest c).bind fun r => .ok (r.1, .val (r.1.payload r.2))
  | .oldToNew => (oldToNew c).bind fun l => .ok (c, .vals l)
  | .newToOld => (newToOld c).bind fun l => .ok (c, .vals l)

/-- A sequence of calls; stops at the first call that fails. -/
def run (c : Cache K V) : List (Op K V) → List (Out K V) × Res (Cache K V)
  | [] => ([], .ok c)
  | o :: os =>
    match step c o with
    | .ok (c1, out) => let r := run c1 os; (out :: r.1, r.2)
    | .abort => ([], .abort)
    | .throw => ([], .throw)
    | .ub => ([], .ub)
    | .diverge => ([], .diverge)

end Verif.Cache
