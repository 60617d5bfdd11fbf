import Verif.Rotate.Spec
import Verif.Select.Spec
/-!
# Select along several axes: specification

`⟨i,j⟩⊏𝕩` has, at an index of `i`, an index of `j` and an index of the other axes of `𝕩` one after the other, the element of `𝕩` at the numbers that `i` and `j` have there and the same index of the other axes.
-/
namespace Verif.Axes
open Verif.Rotate Verif.Select

/-- An array of indices: its shape, and its elements; `none` is anything that is not an integer. -/
structure Idx where
  sh : List Nat
  is : List (Option Int)

/-- As many elements as the shape says, and no more than an array can have. -/
def Idx.Full (w : Idx) : Prop := w.is.length = prod w.sh ∧ w.is.length < 2^32

/-- All indices of each array mean positions along its axis: `ps` are these. -/
inductive Means : List Idx → List Nat → List (List Nat) → Prop
  | nil (xsh : List Nat) : Means [] xsh []
  | cons {w : Idx} {l : Nat} {p : List Nat} {ws ls ps} : positions l w.is = some p → Means ws ls ps → Means (w :: ws) (l :: ls) (p :: ps)

/-- At the index `is` of all arrays of indices, one after the other, these have the positions `qs`. -/
inductive Picks : List Idx → List (List Nat) → List Nat → List Nat → Prop
  | nil : Picks [] [] [] []
  | cons {w : Idx} {p i is qs : List Nat} {q : Nat} {ws ps} : InShape w.sh i → p[ravel w.sh i]? = some q → Picks ws ps is qs → Picks (w :: ws) (p :: ps) (i ++ is) (q :: qs)

/-- The shape of the result. -/
def resultShape (w : List Idx) (xsh : List Nat) : List Nat := (w.map Idx.sh).flatten ++ xsh.drop w.length

/-- `rsh` and `r` are the shape and the elements of the result. -/
structure IsSelect {α : Type} (w : List Idx) (ps : List (List Nat)) (xsh : List Nat) (xs : List α) (rsh : List Nat) (r : List α) : Prop where
  shape : rsh = resultShape w xsh
  length : r.length = prod rsh
  elements : ∀ (is qs rest : List Nat), Picks w ps is qs → InShape (xsh.drop w.length) rest → r[ravel rsh (is ++ rest)]? = xs[ravel xsh (qs ++ rest)]?

example : Picks [⟨[2], [some 1, some (-1)]⟩, ⟨[], [some 0]⟩] [[1, 2], [0]] [1] [2, 0] :=
  .cons (i := [1]) (.cons (by decide) .nil) rfl (.cons (i := []) .nil rfl .nil)

end Verif.Axes
