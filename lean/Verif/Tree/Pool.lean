import Verif.Base
import Verif.Cache.DLL
/-
Model of `MemoryPool` (eisvogel/core/impl/RStarTree.hh 11-112, RStarTree.hxx 1-300).

`Slot::INVALID` (= 2^64 - 1) is `none`; simplification: slot numbers never reach 2^64 - 1.
-/
namespace Verif.Pool
open Verif Verif.DLL

variable {T : Type}

/-- RStarTree.hh 59-67 and 98-111. `size` is the length of `m_data` and `m_slots`. -/
structure Pool (T : Type) where
  init_size : Nat
  size : Nat
  data : Nat → T
  next : Nat → Option Nat
  prev : Nat → Option Nat
  freeStart : Option Nat
  freeEnd : Option Nat
  allocStart : Option Nat
  allocEnd : Option Nat

/-- The pointer maps and one `(list_start, list_end)` pair. -/
structure Lst where
  next : Nat → Option Nat
  prev : Nat → Option Nat
  start : Option Nat
  stop : Option Nat

/-- `m_slots[i].field = v`; outside of the vector this is undefined. -/
def setO (size : Nat) (m : Nat → Option Nat) (i : Nat) (v : Option Nat) : Res (Nat → Option Nat) :=
  if i < size then .ok (upd m i v) else .ub

/-- RStarTree.hxx 136-166 `remove_from_slot_list`. `next_elem`, `prev_elem` are references into `m_slots[to_remove]`. -/
def remove (size : Nat) (s : Lst) (x : Nat) : Res Lst :=
  (Res.assert (decide (x < size))).bind fun _ =>
  (match s.prev x with
    | some p => (setO size s.next p (s.next x)).bind fun n => .ok { s with next := n }
    | none => .ok { s with start := s.next x }).bind fun s1 =>
  match s1.next x with
  | some n => (setO size s1.prev n (s1.prev x)).bind fun p => .ok { s1 with prev := p }
  | none => .ok { s1 with stop := s1.prev x }

/-- RStarTree.hxx 168-192 `add_to_slot_list_back`. -/
def addBack (size : Nat) (s : Lst) (x : Nat) : Res Lst :=
  (Res.assert (decide (x < size))).bind fun _ =>
  match s.stop with
  | some e =>
    (setO size s.next e (some x)).bind fun n =>
    .ok { s with next := upd n x none, prev := upd s.prev x s.stop, stop := some x }
  | none =>
    (Res.assert (s.start.isNone)).bind fun _ =>
    .ok { next := upd s.next x none, prev := upd s.prev x none, start := some x, stop := some x }

def freeList (p : Pool T) : Lst := ⟨p.next, p.prev, p.freeStart, p.freeEnd⟩
def allocList (p : Pool T) : Lst := ⟨p.next, p.prev, p.allocStart, p.allocEnd⟩
def withFree (p : Pool T) (l : Lst) : Pool T := { p with next := l.next, prev := l.prev, freeStart := l.start, freeEnd := l.stop }
def withAlloc (p : Pool T) (l : Lst) : Pool T :=
  { p with next := l.next, prev := l.prev, allocStart := l.start, allocEnd := l.stop }

/-- RStarTree.hxx 37-39, 105-107: `for(i = a; i < a + n; i++) add_to_slot_list_back(i, m_free_start, m_free_end)`. -/
def addFreeRange (p : Pool T) : List Nat → Res (Pool T)
  | [] => .ok p
  | i :: is => (addBack p.size (freeList p) i).bind fun l => addFreeRange (withFree p l) is

/-- RStarTree.hxx 24-40 `reset_slot_lists` on fresh slots. -/
def resetLists (p : Pool T) : Res (Pool T) :=
  addFreeRange { p with freeStart := none, freeEnd := none, allocStart := none, allocEnd := none } (List.range p.size)

/-- RStarTree.hxx 4-10, constructor; `t0` is `T()`. -/
def construct (init_size : Nat) (t0 : T) : Res (Pool T) :=
  resetLists { init_size, size := init_size, data := fun _ => t0, next := fun _ => none, prev := fun _ => none,
               freeStart := none, freeEnd := none, allocStart := none, allocEnd := none }

/-- RStarTree.hxx 12-22 `reset`. -/
def reset (p : Pool T) (t0 : T) : Res (Pool T) :=
  resetLists { p with size := p.init_size, data := fun _ => t0, next := fun _ => none, prev := fun _ => none }

/-- RStarTree.hxx 90-110 `grow`; the new elements are value-initialised. -/
def grow (p : Pool T) (t0 : T) : Res (Pool T) :=
  let old := p.size
  let fresh {β : Type} (m : Nat → β) (b : β) : Nat → β := fun i => if i < old then m i else b
  addFreeRange { p with size := 2 * old, data := fresh p.data t0, next := fresh p.next none, prev := fresh p.prev none }
    ((List.range (2 * old - old)).map (old + ·))

/-- RStarTree.hxx 59-78 `get_empty_slot_front`. -/
def getSlot (p : Pool T) (t0 : T) : Res (Pool T × Nat) :=
  (if p.freeStart = none then grow p t0 else .ok p).bind fun p1 =>
  match p1.freeStart with
  | none => .abort       -- `assert(is_valid_slot(INVALID))` in `remove_from_slot_list`
  | some x =>
    (remove p1.size (freeList p1) x).bind fun l =>
    let p2 := withFree p1 l
    (addBack p2.size (allocList p2) x).bind fun l2 => .ok (withAlloc p2 l2, x)

/-- RStarTree.hxx 80-88 `free_slot`. -/
def freeSlot (p : Pool T) (x : Nat) : Res (Pool T) :=
  (remove p.size (allocList p) x).bind fun l =>
  let p1 := withAlloc p l
  (addBack p1.size (freeList p1) x).bind fun l2 => .ok (withFree p1 l2)

/-- RStarTree.hxx 42-50 `operator[]`. -/
def read (p : Pool T) (x : Nat) : Res T := if x < p.size then .ok (p.data x) else .ub
def write (p : Pool T) (x : Nat) (t : T) : Res (Pool T) :=
  if x < p.size then .ok { p with data := upd p.data x t } else .ub

/-- RStarTree.hxx 220-234 `loop_over_elements_front_to_back`. -/
def walk (nxt : Nat → Option Nat) : Nat → Option Nat → Option (List Nat)
  | _, none => some []
  | 0, some _ => none
  | fuel + 1, some x => (walk nxt fuel (nxt x)).map (x :: ·)

/-- RStarTree.hxx 112-129 `apply`, `fill_elements`: the slots and elements visited. -/
def elements (p : Pool T) : Res (List (Nat × T)) :=
  (Res.ofLoop (walk p.next (p.size + 1) p.allocStart)).bind fun l => .ok (l.map fun x => (x, p.data x))

/-- The calls a client can make. -/
inductive Op (T : Type) where
  | get
  | free (x : Nat)
  | read (x : Nat)
  | write (x : Nat) (t : T)
  | elements
  | reset

inductive Out (T : Type) where
  | unit
  | slot (x : Nat)
  | val (t : T)
  | elems (l : List (Nat × T))

def step (t0 : T) (p : Pool T) : Op T → Res (Pool T × Out T)
  | .get => (getSlot p t0).bind fun r => .ok (r.1, .slot r.2)
  | .free x => (freeSlot p x).bind fun p1 => .ok (p1, .unit)
  | .read x => (read p x).bind fun t => .ok (p, .val t)
  | .write x t => (write p x t).bind fun p1 => .ok (p1, .unit)
  | .elements => (elements p).bind fun l => .ok (p, .elems l)
  | .reset => (reset p t0).bind fun p1 => .ok (p1, .unit)

end Verif.Pool
