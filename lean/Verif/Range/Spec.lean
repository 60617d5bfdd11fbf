import Verif.Rotate.Spec
/-!
# Range: specification
-/
namespace Verif.Range
open Verif.Rotate

/-- The shape and the elements of an array whose shape is `sh` and whose element at each index is that index. -/
structure IsRange (sh : List Nat) (rsh : List Nat) (els : List (List Int)) : Prop where
  shape : rsh = sh
  count : els.length = prod sh
  each : ∀ is, InShape sh is → els[ravel sh is]? = some (is.map Int.ofNat)

example : IsRange [2, 2] [2, 2] [[0, 0], [0, 1], [1, 0], [1, 1]] := by
  refine ⟨rfl, rfl, fun is h => ?_⟩
  match is, h with
  | [i, j], .cons h1 (.cons h2 .nil) =>
    have : i = 0 ∨ i = 1 := by omega
    have : j = 0 ∨ j = 1 := by omega
    rcases ‹i = 0 ∨ i = 1› with rfl | rfl <;> rcases ‹j = 0 ∨ j = 1› with rfl | rfl <;> rfl

end Verif.Range
