import Verif.Rep.Model
/-!
# Arrays of several axes, and Rotate: specification
-/
namespace Verif.Rotate

/-- The number of elements of an array of this shape. -/
def prod : List Nat → Nat
  | [] => 1
  | s :: sh => s * prod sh

/-- An index of one number per axis, each below the length of its axis. -/
inductive InShape : List Nat → List Nat → Prop
  | nil : InShape [] []
  | cons {s i : Nat} {sh is : List Nat} : i < s → InShape sh is → InShape (s :: sh) (i :: is)

/-- Where the element at this index is: the last axis varies fastest. -/
def ravel : List Nat → List Nat → Nat
  | _ :: sh, i :: is => i * prod sh + ravel sh is
  | _, _ => 0

/-- The index of the element that a rotation by `ws` along the leading axes moves to `is`. -/
def rotated : List Nat → List Int → List Nat → List Nat
  | s :: sh, w :: ws, i :: is => ((i + w) % s).toNat :: rotated sh ws is
  | _, _, is => is

/-- An amount of 64 bits. -/
def I64 (v : Int) : Prop := -2^63 ≤ v ∧ v < 2^63

example : ravel [2, 3, 4] [1, 0, 2] = 14 := by decide
example : rotated [2, 3, 4] [1, -1] [1, 0, 2] = [0, 2, 2] := by decide

end Verif.Rotate
