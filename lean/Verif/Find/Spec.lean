import Verif.Windows.Spec
/-!
# Find: specification

`𝕩` has the shape `lead ++ tail`, and `𝕨` has as many axes as `tail`. `eq v u` tells whether an element `v` of `𝕩` matches an element `u` of `𝕨`.
-/
namespace Verif.Find
open Verif.Rotate Verif.Windows

/-- For each index of the leading axes and each place along the others: whether `𝕨` is there. There's no place on an axis that is too short. -/
structure IsFind {α} (eq : α → α → Bool) (wsh : List Nat) (w : List α) (lead tail : List Nat) (x : List α) (rsh : List Nat) (r : List Bool) : Prop where
  shape : rsh = lead ++ places wsh tail
  count : r.length = prod rsh
  each : ∀ l p, InShape lead l → InShape (places wsh tail) p → ∃ b, r[ravel rsh (l ++ p)]? = some b ∧
    (b = true ↔ ∀ q, InShape wsh q → ∃ u v, w[ravel wsh q]? = some u ∧ x[ravel (lead ++ tail) (l ++ List.zipWith (· + ·) p q)]? = some v ∧ eq v u = true)

end Verif.Find
