import Verif.Array.Numpy
/-
Specification for C95: the grammar of JSON (RFC 8259), as far as it is needed here: numbers are natural numbers, strings have no escape sequences.
-/
namespace Verif.Json
open Verif.ND (bytesOf IsDecimal)

/-- JSON values. The members of an object are kept in order. -/
inductive Json where
  | num (n : Nat)
  | str (s : List Nat)
  | arr (l : List Json)
  | obj (l : List (List Nat × Json))

/-- RFC 8259, 2: blanks, tabs, line feeds, carriage returns. -/
def Ws (w : List Nat) : Prop := ∀ c ∈ w, c = 0x20 ∨ c = 0x09 ∨ c = 0x0a ∨ c = 0x0d

/-- RFC 8259, 7: the characters of a string that stand for themselves, as far as they are ASCII. -/
def Plain (s : List Nat) : Prop := ∀ c ∈ s, 0x20 ≤ c ∧ c < 0x7f ∧ c ≠ 0x22 ∧ c ≠ 0x5c

/-- The bytes between the brackets of an array or object: the parts, separated by commas (0x2c), with white space around each; `is` holds for a part and its text. -/
inductive Sep {α : Type} (is : α → List Nat → Prop) : List α → List Nat → Prop
  | none {w : List Nat} : Ws w → Sep is [] w
  | one {a : α} {w s w' : List Nat} : Ws w → is a s → Ws w' → Sep is [a] (w ++ s ++ w')
  | cons {a b : α} {l : List α} {w s w' r : List Nat} : Ws w → is a s → Ws w' → Sep is (b :: l) r → Sep is (a :: b :: l) (w ++ s ++ w' ++ 0x2c :: r)

/-- The bytes of a member of an object: a string, a colon (0x3a), a value, with white space around the colon; `is` holds for the value and its text. -/
def Member (is : Json → List Nat → Prop) (p : List Nat × Json) (s : List Nat) : Prop :=
  ∃ w w' v, Plain p.1 ∧ Ws w ∧ Ws w' ∧ is p.2 v ∧ s = 0x22 :: p.1 ++ 0x22 :: w ++ 0x3a :: w' ++ v

/-- `s` is the text of the value (RFC 8259, 3-7) with at most `k` brackets inside each other. -/
def Text : Nat → Json → List Nat → Prop
  | _, .num n, s => IsDecimal s n
  | _, .str t, s => Plain t ∧ s = 0x22 :: t ++ [0x22]
  | k + 1, .arr l, s => ∃ r, Sep (Text k) l r ∧ s = 0x5b :: r ++ [0x5d]
  | k + 1, .obj l, s => ∃ r, Sep (Member (Text k)) l r ∧ s = 0x7b :: r ++ [0x7d]
  | _, _, _ => False

/-- `s` is a JSON text of the value: white space, the value, white space. -/
def IsJson (s : List Nat) (v : Json) : Prop := ∃ k w t w', Ws w ∧ Text k v t ∧ Ws w' ∧ s = w ++ t ++ w'

end Verif.Json
