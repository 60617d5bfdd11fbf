import Verif.Bins.Spec
/-!
# Element types: specification

What the elements of an array are, when two of them are equal, and which elements each of the nine element
types of `src/h.h` can hold.
-/
namespace Verif.Squeeze
open Verif.Bins (ofInt)

/-- An element: a number given by the bits of its double, a character, or anything else (array, function,
modifier, namespace), told apart only by a name. -/
inductive Val
  | num (f : BitVec 64)
  | chr (c : BitVec 32)
  | other (id : Nat)
deriving DecidableEq

/-- Element types, in the order of their numbers. -/
inductive El
  | bit | i8 | i16 | i32 | f64 | c8 | c16 | c32 | B
deriving DecidableEq

def El.rank : El → Nat
  | .bit => 0 | .i8 => 1 | .i16 => 2 | .i32 => 3 | .f64 => 4 | .c8 => 5 | .c16 => 6 | .c32 => 7 | .B => 8

/-- Equal as doubles: neither is NaN and they have the same value, so that the two zeroes are equal. -/
def EqF (a b : BitVec 64) : Prop := Compare.nan a = false ∧ Compare.nan b = false ∧ Compare.key a = Compare.key b

/-- The same element: the same bits, or equal doubles. -/
def Same : Val → Val → Prop
  | .num a, .num b => a = b ∨ EqF a b
  | .chr a, .chr b => a = b
  | .other a, .other b => a = b
  | _, _ => False

/-- Lists with the same elements. -/
inductive Sames : List Val → List Val → Prop
  | nil : Sames [] []
  | cons {a b as bs} : Same a b → Sames as bs → Sames (a :: as) (b :: bs)

/-- A number equal to an integer between two bounds. -/
def IntIn (lo hi : Int) (v : Val) : Prop := ∃ i : Int, lo ≤ i ∧ i ≤ hi ∧ Same v (.num (ofInt i))

/-- Elements that an element type can hold. -/
def Holds : El → Val → Prop
  | .bit, v => IntIn 0 1 v
  | .i8, v => IntIn (-128) 127 v
  | .i16, v => IntIn (-32768) 32767 v
  | .i32, v => IntIn (-2147483648) 2147483647 v
  | .f64, v => ∃ f, v = .num f
  | .c8, v => ∃ c, v = .chr c ∧ c.toNat < 256
  | .c16, v => ∃ c, v = .chr c ∧ c.toNat < 65536
  | .c32, v => ∃ c, v = .chr c
  | .B, _ => True

/-- The element type is the least one that can hold all of the elements. -/
def Least (t : El) (xs : List Val) : Prop :=
  (∀ v ∈ xs, Holds t v) ∧ ∀ u : El, (∀ v ∈ xs, Holds u v) → t.rank ≤ u.rank

end Verif.Squeeze
