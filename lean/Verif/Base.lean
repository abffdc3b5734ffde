import Verif.Iter.Model
/-
Common vocabulary of the model: outcomes of running C++ code and `std::size_t` arithmetic.
-/
namespace Verif

/-- Outcome of running a piece of C++: a value, a failed `assert` (active in Eisvogel's builds: the
    CMake flags contain no `-DNDEBUG`), a thrown exception, undefined behaviour (out-of-bounds access,
    null dereference, ...), or a loop that does not terminate. -/
inductive Res (α : Type u) where
  | ok (a : α)
  | abort
  | throw
  | ub
  | diverge
deriving Repr, DecidableEq

namespace Res
variable {α : Type u} {β : Type v}

def bind (x : Res α) (f : α → Res β) : Res β :=
  match x with
  | ok a => f a
  | abort => abort
  | throw => throw
  | ub => ub
  | diverge => diverge

instance : Monad Res where
  pure := ok
  bind := bind

@[simp] theorem ok_bind (a : α) (f : α → Res β) : (ok a).bind f = f a := rfl
@[simp] theorem bind_eq {α β : Type u} (x : Res α) (f : α → Res β) : (x >>= f) = x.bind f := rfl
@[simp] theorem pure_eq {α : Type u} (a : α) : (pure a : Res α) = ok a := rfl

theorem bind_eq_ok {x : Res α} {f : α → Res β} {b : β} :
    x.bind f = ok b ↔ ∃ a, x = ok a ∧ f a = ok b := by
  cases x <;> simp [bind]

def map (f : α → β) (x : Res α) : Res β := x.bind fun a => ok (f a)

/-- `assert(c)`. -/
def assert (c : Bool) : Res Unit := if c then ok () else abort

@[simp] theorem assert_true : assert true = ok () := rfl
@[simp] theorem assert_false : assert false = abort := rfl

/-- Out-of-fuel of a loop trace becomes `diverge`. -/
def ofLoop : Option α → Res α
  | some a => ok a
  | none => diverge

end Res

/-- `std::size_t` addition. -/
@[irreducible] def wadd (a b : Nat) : Nat := (a + b) % U64
/-- `std::size_t` subtraction (wraps below zero). Meaningful for `a, b < 2^64`. -/
@[irreducible] def wsub (a b : Nat) : Nat := (a + (U64 - b)) % U64

/-- Vector.hh 126-131, `Vector + Vector`. -/
def vadd (a b : List Nat) : List Nat := List.zipWith wadd a b
/-- Vector.hh 133-138, `Vector - Vector`. -/
def vsub (a b : List Nat) : List Nat := List.zipWith wsub a b
/-- Vector.hh 187-192, `Vector - scalar`. -/
def vsubS (a : List Nat) (s : Nat) : List Nat := a.map (wsub · s)

theorem wadd_eq {a b : Nat} (h : a + b < U64) : wadd a b = a + b := by
  unfold wadd; exact Nat.mod_eq_of_lt h
theorem wsub_eq {a b : Nat} (h : b ≤ a) (ha : a < U64) : wsub a b = a - b := by
  unfold wsub
  have hU : U64 = 2 ^ 64 := rfl
  have : a + (U64 - b) = (a - b) + U64 := by omega
  rw [this, Nat.add_mod_right, Nat.mod_eq_of_lt (by omega)]

/-- Number of loop iterations granted to a chunk loop with end vector `e`; more than any
    well-behaved loop needs (`C02_chunk_loop_partitions`). -/
def fuelFor (e : List Nat) : Nat := e.foldr max 0 + 1

theorem lt_fuelFor {e : List Nat} : ∀ x ∈ e, x < fuelFor e := by
  unfold fuelFor
  induction e with
  | nil => simp
  | cons y ys ih =>
    intro x hx
    rw [List.foldr_cons]
    rcases List.mem_cons.1 hx with rfl | hx
    · omega
    · have := ih x hx; omega

end Verif
