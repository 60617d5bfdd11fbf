import Verif.Select.Spec
/-!
# Under Select: specification

`ps` are the positions of the selected cells, each of `csz` elements; `rep` are the elements of the cells to put there, one cell after the other.
`compat` is the test for matching elements.
-/
namespace Verif.Under

/-- Cells that are put at the same position match. -/
def Consistent {α} (compat : α → α → Bool) (csz : Nat) (ps : List Nat) (rep : Nat → α) : Prop :=
  ∀ (i k p : Nat), ps[i]? = some p → ps[k]? = some p → ∀ j, j < csz → compat (rep (i * csz + j)) (rep (k * csz + j)) = true

/-- `r` is `x` with the new cells: at every selected position there is the new cell (one that matches it, if several are put there), and all other
elements of the `n` are kept. -/
def Replaced {α} (compat : α → α → Bool) (csz : Nat) (ps : List Nat) (rep x : Nat → α) (n : Nat) (r : Nat → α) : Prop :=
  (∀ k, k < n → k / csz ∉ ps → r k = x k) ∧ ∀ (i p : Nat), ps[i]? = some p → ∀ j, j < csz → compat (r (p * csz + j)) (rep (i * csz + j)) = true

/-- Matching for elements of lists, which there may be none of. -/
def lift {α} (compat : α → α → Bool) : Option α → Option α → Bool
  | some a, some b => compat a b
  | none, none => true
  | _, _ => false

/-- What the result has to be: an error if an index is bad or if the new cells don't match, and otherwise `x` with the new cells. -/
def Expected {M α R} (compat : α → α → Bool) (csz : Nat) (ps : Option (List Nat)) (rep x : Nat → α) (n : Nat) (view : M → Nat → α) (wrap : M → R) (Good : M → Prop) (out : Option (Rep.Out R)) : Prop :=
  match ps with
  | none => out = some .err
  | some ps => (¬ Consistent compat csz ps rep → out = some .err) ∧
    (Consistent compat csz ps rep → ∃ r, out = some (.ok (wrap r)) ∧ Good r ∧ Replaced compat csz ps rep x n (view r))

end Verif.Under
