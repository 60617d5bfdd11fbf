import Verif.Unorder.Model
/-!
# The inverse of Reorder Axes: specification
-/
namespace Verif.Unorder

/-- The axes that `𝕨` gives: a number is like a list of it. -/
def Axes.nums : Axes → List Nat
  | .atom a => [a]
  | .list ws => ws

/-- `𝕨⍉` has an inverse for arrays with `r` axes: there are enough axes, those that `𝕨` gives are there, and they are different. -/
def Invertible (w : Axes) (r : Nat) : Prop := w.nums.Nodup ∧ w.nums.length ≤ r ∧ ∀ a ∈ w.nums, a < r

instance (w : Axes) (r : Nat) : Decidable (Invertible w r) := inferInstanceAs (Decidable (_ ∧ _ ∧ _))

/-- `tr` is `⍉` on lists of elements with a shape: it moves the first axis to the end and keeps the element at each index (C28). -/
def IsTranspose {α} (tr : List α → List Nat → Option (List α × List Nat)) : Prop :=
  (∀ x sh, sh.length ≤ 1 → tr x sh = some (x, sh)) ∧
  ∀ (x : List α) (h : Nat) (sh : List Nat), sh ≠ [] → x.length = Rotate.prod (h :: sh) → ∃ r, tr x (h :: sh) = some (r, sh ++ [h]) ∧ r.length = Rotate.prod (sh ++ [h]) ∧
    ∀ i is, i < h → Rotate.InShape sh is → r[Rotate.ravel (sh ++ [h]) (is ++ [i])]? = x[Rotate.ravel (h :: sh) (i :: is)]?

end Verif.Unorder
