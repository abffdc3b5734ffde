import Verif.Ops.Downsample
import Mathlib.Algebra.Order.Field.Basic
/-
Model of `FieldStatisticsTracker` and `limit_field_dynamic_range` (MEEPCylindricalGreensFunctionCalculator.hxx 9-70, 173-203).

Numbers are elements of an ordered field `K` (no rounding, no NaN). `RegionKeyT` is any type with decidable equality. An exhausted heap is not modelled.
-/
namespace Verif.Meep
open Verif Verif.ND Verif.Ops

variable {K : Type} [Field K] [LinearOrder K] [IsStrictOrderedRing K] {Key : Type} [DecidableEq Key]

/-! ### The program -/

/-- An owning `NDVecArray<scalar_t, dims, 1>`. -/
abbrev Region (K : Type) := Hdr × List K

/-- Lines 64-69: `m_downsampling`, `m_max_data`. -/
structure Tracker (Key K : Type) where
  m : Nat
  data : Key → Option (Region K)

/-- Line 20, the constructor. -/
def Tracker.new (Key K : Type) (m : Nat) : Tracker Key K := ⟨m, fun _ => none⟩

/-- Lines 58-60 `to_downsampled_shape`: `(shape + m_downsampling - 1) / m_downsampling`, componentwise in `std::size_t`. -/
def toDsShape (m : Nat) (shape : List Nat) : Res (List Nat) :=
  if m = 0 ∧ shape ≠ [] then .ub else .ok ((vsubS (vaddS shape m) 1).map (· / m))

/-- Lines 62-64 `to_downsampled_ind`. -/
def toDsInd (m : Nat) (ind : List Nat) : Res (List Nat) :=
  if m = 0 ∧ ind ≠ [] then .ub else .ok (ind.map (· / m))

/-- `std::unordered_map::emplace` on the entry of one key: an entry that exists already stays. -/
def emplace {α : Type} (old : Option α) (new : α) : Option α :=
  match old with
  | some r => some r
  | none => some new

/-- Lines 22-30 `AddRegion`: `emplace` keeps the entry that is there. NDVecArray.hxx 17-22: every scalar of the new array is `init`. -/
def Tracker.add (t : Tracker Key K) (key : Key) (shape : List Nat) (init : K) : Res (Tracker Key K) :=
  (toDsShape t.m shape).bind fun s =>
  .ok { t with data := fun k => if k = key then
          emplace (t.data key) (mkHdr 1 s, List.replicate (volume 1 s) init)
        else t.data k }

/-- Lines 38-46, `max_updater`. `v[0]` of the element at an index is the one scalar that is there. -/
def maxUpd (m : Nat) (hs : Hdr) (src : List K) (hm : Hdr) (ind : List Nat) (mx : List K) : Res (List K) :=
  (toDsInd m ind).bind fun sub =>
  (read 1 hs src ind).bind fun cur =>
  (read 1 hm mx sub).bind fun old =>
  match cur, old with
  | [c], [o] => if c > o then write 1 hm mx sub [c] else .ok mx
  | _, _ => .ub

/-- Lines 32-48 `UpdateStatisticsForRegion`. -/
def Tracker.update (t : Tracker Key K) (key : Key) (hs : Hdr) (src : List K) : Res (Tracker Key K) :=
  match t.data key with
  | none => .abort
  | some (hm, mx) =>
      (runLoop (maxUpd t.m hs src hm) (arrayElemLoop hs.shape) mx).bind fun mx' =>
      .ok { t with data := fun k => if k = key then some (hm, mx') else t.data k }

/-- Lines 50-54 `GetMaxLocal`. -/
def Tracker.maxLocal (t : Tracker Key K) (key : Key) (ind : List Nat) : Res K :=
  match t.data key with
  | none => .abort
  | some (hm, mx) => (toDsInd t.m ind).bind fun sub => (read 1 hm mx sub).bind fun v =>
      match v with
      | [x] => .ok x
      | _ => .ub

/-- Lines 179-201, `truncator`. `cur_elem = 0` assigns `Vector(0)` (Vector.hh 34-36, VectorView.hh 29-32): every component becomes zero. -/
def truncator (vd : Nat) (t : Tracker Key K) (key : Key) (ha : Hdr) (absval : List K) (absMin dr : K) (hf : Hdr) (ind : List Nat) (fld : List K) : Res (List K) :=
  let slice := ind.drop 1
  (t.maxLocal key slice).bind fun mx =>
  if mx > absMin then
    (read 1 ha absval slice).bind fun v =>
    match v with
    | [cur] => if cur < mx / dr then write vd hf fld ind (List.replicate vd 0) else .ok fld
    | _ => .ub
  else write vd hf fld ind (List.replicate vd 0)

/-- Lines 173-203 `limit_field_dynamic_range`; `(hf, fld)` is `field_buffer`, `(ha, absval)` is `field_absval_buffer`. -/
def limitRange (vd : Nat) (t : Tracker Key K) (key : Key) (hf : Hdr) (fld : List K) (ha : Hdr) (absval : List K) (absMin dr : K) : Res (List K) :=
  (indexLoopAll vd hf fld).bind fun calls =>
  runLoop (truncator vd t key ha absval absMin dr hf) (calls.map Prod.fst) fld

/-! ### Histories -/

/-- A call that changes the tracker. `update key shape values` is a call with an owning array (the field magnitudes of one time slice). -/
inductive Op (Key K : Type) where
  | add (key : Key) (shape : List Nat)
  | update (key : Key) (shape : List Nat) (values : List K)

/-- Execute one call (`init_value = 0.0`, line 22). -/
def Tracker.step (t : Tracker Key K) : Op Key K → Res (Tracker Key K)
  | .add k s => t.add k s 0
  | .update k s v => t.update k (mkHdr 1 s) v

def Tracker.run (t : Tracker Key K) : List (Op Key K) → Res (Tracker Key K)
  | [] => .ok t
  | o :: os => (t.step o).bind fun t' => t'.run os

end Verif.Meep
