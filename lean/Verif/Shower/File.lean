import Verif.Shower.Model
import Verif.Bytes.Model
/-
Model of the file of shower profiles: the constructor of `ShowerCreator` and `read_shower` (extern/shower_profile/shower_creator/shower_creator.cpp 14-43, 84-99), on a
little-endian host.

The file is the list of its bytes. `dec` is the number that eight bytes stand for, `scale` the conversion of units in line 93. Console output is left out, and the vectors
are assumed to fit into memory.
-/
namespace Verif.Shower
open Verif Verif.Bytes

/-- Complete elements of `size` bytes, at most `n` of them. -/
def elements (size : Nat) : Nat → List Nat → List (List Nat)
  | 0, _ => []
  | n + 1, f => if size ≤ f.length then f.take size :: elements size n (f.drop size) else []

/-- `fread(p, size, n, f)`: the elements that have been read, and the rest of the file. What an element that is only partly in the file does to the memory is not specified by the
    standard; here it is left as it was. -/
def fread (size n : Nat) (f : List Nat) : List (List Nat) × List Nat := (elements size n f, f.drop (size * n))

/-- The value of four bytes as an `int`. -/
def toInt (bs : List Nat) : Int := if leVal bs < 2 ^ 31 then (leVal bs : Int) else (leVal bs : Int) - 2 ^ 32

/-- A record of the profile file: charge_excess_profile.cpp 5-13. -/
structure Record (K : Type) where
  hadronic : Int
  energy : K
  profile : Profile K

variable {K : Type}

/-- A vector of `n` zeros into which elements have been read from the file. -/
def filled (zero : K) (dec : List Nat → K) (n : Nat) (es : List (List Nat)) : List K := es.map dec ++ List.replicate (n - es.length) zero

/-- shower_creator.cpp 84-99 `read_shower`: whether the end has been reached, the record, and the rest of the file. `junk` are the values of the uninitialised `hadronic` and `energy`
    of the local variable `profile` (line 26). `resize` with a negative length throws; the first element of an empty vector does not exist (lines 91, 96). -/
def readShower (zero : K) (dec : List Nat → K) (scale : K → K) (junk : Int × K) (f : List Nat) : Res (Bool × Record K × List Nat) :=
  match fread 4 1 f with
  | (n :: _, f1) =>
    let (had, f2) := match fread 4 1 f1 with
      | (h :: _, r) => (toInt h, r)
      | ([], r) => (junk.1, r)
    let (en, f3) := match fread 8 1 f2 with
      | (e :: _, r) => (dec e, r)
      | ([], r) => (junk.2, r)
    if toInt n < 0 then .throw
    else if toInt n = 0 then .ub
    else
      let m := (toInt n).toNat
      let (g, f4) := fread 8 m f3
      let (q, f5) := fread 8 m f4
      .ok (false, ⟨had, en, ⟨(filled zero dec m g).map scale, filled zero dec m q⟩⟩, f5)
  | ([], r) => .ok (true, ⟨junk.1, junk.2, ⟨[], []⟩⟩, r)

/-- shower_creator.h 36-37: `ce_profiles` and `stored_energies`. -/
structure Store (K : Type) where
  profiles : Int → K → List (Profile K)
  energies : Int → List K

/-- shower_creator.cpp 35-40. A key of `ce_profiles[had]` is absent when its list is empty, as a profile is added immediately after a key. -/
def Store.add [DecidableEq K] (S : Store K) (r : Record K) : Store K where
  profiles h e := if h = r.hadronic ∧ e = r.energy then S.profiles h e ++ [r.profile] else S.profiles h e
  energies h := if h = r.hadronic ∧ S.profiles r.hadronic r.energy = [] then S.energies h ++ [r.energy] else S.energies h

/-- shower_creator.cpp 25-41: the loop; `junk k` is what round `k` finds in the uninitialised variable; at most `fuel` rounds. -/
def loadLoop [DecidableEq K] (zero : K) (dec : List Nat → K) (scale : K → K) (junk : Nat → Int × K) : Nat → Nat → List Nat → Store K → Res (Store K)
  | 0, _, _, _ => .diverge
  | fuel + 1, k, f, S =>
    (readShower zero dec scale (junk k) f).bind fun (done, r, rest) =>
    if done then .ok (S.add r) else loadLoop zero dec scale junk fuel (k + 1) rest (S.add r)

/-- shower_creator.cpp 14-43: the constructor. `none` is a file that cannot be opened: `fopen` returns a null pointer, and it is used. -/
def load [DecidableEq K] (zero : K) (dec : List Nat → K) (scale : K → K) (junk : Nat → Int × K) : Option (List Nat) → Res (Store K)
  | none => .ub
  | some f => loadLoop zero dec scale junk (f.length + 1) 0 f ⟨fun _ _ => [], fun _ => []⟩

/-- shower_creator.cpp 46-82 `create_shower` on what the constructor has stored. -/
def createFrom (N : Num K) (abs : K → K) (S : Store K) (en : K) (had i_shower : Int) : Res (Profile K × K) :=
  createShower N abs (S.energies had) (S.profiles had) en i_shower

end Verif.Shower
