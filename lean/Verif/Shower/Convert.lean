import Verif.Shower.File
/-
Model of the program that converts the ARZ library of shower profiles to the file that `ShowerCreator` reads: extern/shower_profile/convert_shower_profile.py, on a little-endian host.

The library is the list of the entries of the two nested dictionaries in their order. `enc` are the eight bytes of a double, `kgm2` is `units.kg / units.m**2` and `coulomb` is
`units.coulomb` of the Python package. The download and the HDF5 and JSON files (lines 10-16, 29-30, 33-35, 38, 46-56) are left out; the dictionary keys are taken to be numbers already.
-/
namespace Verif.Shower
open Verif Verif.Bytes

variable {K : Type}

/-- convert_shower_profile.py 36-45: what the library has for one energy. -/
structure Entry (K : Type) where
  energy : K
  depth : List K
  charge_excess : List (List K)

/-- convert_shower_profile.py 20-25 `write_shower`, with the operations of the arithmetic given by `div`. A list that is too long for its length to be an `int32` makes NumPy raise an
    exception. -/
def writeShower (enc : K → List Nat) (div : K → K → K) (kgm2 : K) (E : K) (type : String) (grammage q : List K) : Res (List Nat) :=
  if 2 ^ 31 ≤ grammage.length then .throw
  else .ok (leBytes 4 grammage.length ++ leBytes 4 (if type = "HAD" then 1 else 0) ++ enc E ++ (grammage.flatMap fun g => enc (div g kgm2)) ++ q.flatMap enc)

/-- convert_shower_profile.py 39-48: the showers of one energy. -/
def writeEntry (enc : K → List Nat) (div : K → K → K) (kgm2 coulomb : K) (type : String) (e : Entry K) : List (List K) → Res (List Nat)
  | [] => .ok []
  | q :: qs =>
    (writeShower enc div kgm2 e.energy type e.depth (q.map fun x => div x coulomb)).bind fun b =>
    (writeEntry enc div kgm2 coulomb type e qs).bind fun bs => .ok (b ++ bs)

/-- convert_shower_profile.py 36-48: the energies of one kind. -/
def writeKind (enc : K → List Nat) (div : K → K → K) (kgm2 coulomb : K) (type : String) : List (Entry K) → Res (List Nat)
  | [] => .ok []
  | e :: es =>
    (writeEntry enc div kgm2 coulomb type e e.charge_excess).bind fun b =>
    (writeKind enc div kgm2 coulomb type es).bind fun bs => .ok (b ++ bs)

/-- convert_shower_profile.py 27-48: the file that is written from a library. -/
def convert (enc : K → List Nat) (div : K → K → K) (kgm2 coulomb : K) : List (String × List (Entry K)) → Res (List Nat)
  | [] => .ok []
  | (type, es) :: l =>
    (writeKind enc div kgm2 coulomb type es).bind fun b =>
    (convert enc div kgm2 coulomb l).bind fun bs => .ok (b ++ bs)

end Verif.Shower
