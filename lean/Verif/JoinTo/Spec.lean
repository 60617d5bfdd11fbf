import Verif.Rotate.Spec
/-!
# Join To: specification
-/
namespace Verif.JoinTo
open Verif.Rotate

/-- Arrays of these shapes have `a` and `b` cells of the shape `csh`. An array of one rank less than the other is one cell, and so are two units. -/
inductive Cells : List Nat → List Nat → Nat → Nat → List Nat → Prop
  | both {a b csh} : Cells (a :: csh) (b :: csh) a b csh
  | left {b csh} : Cells csh (b :: csh) 1 b csh
  | right {a csh} : Cells (a :: csh) csh a 1 csh
  | units : Cells [] [] 1 1 []

/-- The `a` cells of `w`, and then the `b` cells of `x`. -/
structure IsJoin {α} (a b : Nat) (csh : List Nat) (w x : List α) (rsh : List Nat) (r : List α) : Prop where
  shape : rsh = (a + b) :: csh
  count : r.length = prod rsh
  first : ∀ i c, InShape (a :: csh) (i :: c) → r[ravel rsh (i :: c)]? = w[ravel (a :: csh) (i :: c)]?
  second : ∀ i c, InShape (b :: csh) (i :: c) → r[ravel rsh ((a + i) :: c)]? = x[ravel (b :: csh) (i :: c)]?

end Verif.JoinTo
