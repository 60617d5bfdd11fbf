/-!
# Values that can be ordered, and when two of them are the same
-/
namespace Verif.Compare

/-- A number (the 64 bits of an IEEE double), a character, or an array with its shape and elements in index order.
Functions, modifiers and namespaces have no order and are not included. -/
inductive Val where
  | num (f : BitVec 64)
  | chr (c : Nat)
  | arr (sh : List Nat) (xs : List Val)

/-- Not a number: all exponent bits set and some fraction bit set. -/
def nan (f : BitVec 64) : Bool := decide (f.toNat % 2^63 > 0x7FF0000000000000)

/-- A number with the order of the doubles that are not NaN; both zeroes give 0. -/
def key (f : BitVec 64) : Int := if f.toNat < 2^63 then (f.toNat : Int) else -((f.toNat - 2^63 : Nat) : Int)

/-- The number of elements of a shape. -/
def count (sh : List Nat) : Nat := sh.foldr (· * ·) 1

mutual
/-- An array has as many elements as its shape says, and fewer than 2^32. -/
def Ok : Val → Prop
  | .num _ => True
  | .chr _ => True
  | .arr sh xs => xs.length = count sh ∧ count sh < 2^32 ∧ Oks xs
def Oks : List Val → Prop
  | [] => True
  | v :: vs => Ok v ∧ Oks vs
end

mutual
/-- The same value: the same shape and the same elements. A NaN is the same as any NaN. -/
def Same : Val → Val → Prop
  | .num f, .num g => nan f = nan g ∧ (nan f = false → key f = key g)
  | .chr c, .chr d => c = d
  | .arr s xs, .arr t ys => s = t ∧ Sames xs ys
  | _, _ => False
def Sames : List Val → List Val → Prop
  | [], [] => True
  | v :: vs, w :: ws => Same v w ∧ Sames vs ws
  | _, _ => False
end

end Verif.Compare
