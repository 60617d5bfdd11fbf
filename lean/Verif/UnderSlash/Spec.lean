import Verif.Rep.Spec
import Verif.Under.Spec
/-!
# Under Replicate: specification

`ns` are the counts, one for each element of `𝕩`; `indices ns` (from `Rep/Spec.lean`) has each index as often as its count says, so it says which element of `𝕩` each element of `ns/𝕩` comes from.
-/
namespace Verif.UnderSlash
open Verif.Rep

/-- New elements that are put at the same place match. -/
def Consistent {α} (compat : α → α → Bool) (ns : List Nat) (rep : Nat → Option α) : Prop :=
  ∀ p q i, (indices ns)[p]? = some i → (indices ns)[q]? = some i → Under.lift compat (rep p) (rep q) = true

/-- `r` is `x` with the new elements: those with count 0 are kept, and at every other place there is the new element, or one that matches it if several are put there. -/
def Replaced {α} (compat : α → α → Bool) (ns : List Nat) (rep x r : Nat → Option α) : Prop :=
  (∀ i, ns[i]? = some 0 → r i = x i) ∧ ∀ p i, (indices ns)[p]? = some i → Under.lift compat (rep p) (r i) = true

/-- How many references to `a` are more than before. -/
def net {α} [DecidableEq α] (a : α) : List (Bool × α) → Int
  | [] => 0
  | (up, b) :: es => (if b = a then (if up then 1 else -1) else 0) + net a es

example : Consistent (fun a b : Char => a == b) [2, 0, 1] (['x', 'x', 'y'][·]?) := by
  intro p q i hp hq
  match p, q with
  | 0, 0 | 0, 1 | 1, 0 | 1, 1 | 2, 2 => rfl
  | 0, 2 | 1, 2 => cases hp; cases hq
  | 2, 0 | 2, 1 => cases hp; cases hq
  | p + 3, _ => cases hp
  | 0, q + 3 | 1, q + 3 | 2, q + 3 => cases hq

end Verif.UnderSlash
