import Verif.Rotate.Spec
/-!
# Reorder Axes: specification

`𝕨⍉𝕩` sends axis `i` of `𝕩` to the axis `𝕨[i]` of the result. Axes that `𝕨` has no number for go, in order, to the axes of the result that are not in `𝕨`. Axes that go to the same
place give a diagonal, as long as the shortest of them.
-/
namespace Verif.Reorder
open Verif.Rotate (prod InShape ravel)

/-- The axis of the result for every axis of an argument with `r` axes. -/
def target (ws : List Nat) (r : Nat) : List Nat := ws ++ ((List.range r).filter fun j => !ws.contains j).take (r - ws.length)

/-- The different numbers in a list. -/
def distinct : List Nat → List Nat
  | [] => []
  | a :: as => if as.contains a then distinct as else a :: distinct as

/-- The number of axes of the result. -/
def newRank (ws : List Nat) (r : Nat) : Nat := (distinct ws).length + (r - ws.length)

/-- `𝕨` fits `𝕩`: it isn't too long, and together with the other axes it fills the axes of the result without gaps. -/
def Fits (ws : List Nat) (r : Nat) : Prop := ws.length ≤ r ∧ ∀ w ∈ ws, w < newRank ws r

instance (ws : List Nat) (r : Nat) : Decidable (Fits ws r) := inferInstanceAs (Decidable (_ ∧ _))

/-- The shortest of the axes with target `j`. -/
def axisLen (j : Nat) : List (Nat × Nat) → Option Nat
  | [] => none
  | (t, s) :: ps => if t = j then some (match axisLen j ps with | some l => min s l | none => s) else axisLen j ps

/-- The shape of the result. -/
def newShape (ws sh : List Nat) : List Nat := (List.range (newRank ws sh.length)).map fun j => (axisLen j ((target ws sh.length).zip sh)).getD 0

/-- The index in `𝕩` of the element at `is`. -/
def sourceIdx (ws : List Nat) (r : Nat) (is : List Nat) : List Nat := (target ws r).map fun j => is.getD j 0

example : target [1] 3 = [1, 0, 2] := by decide
example : newShape [1] [2, 3, 4] = [3, 2, 4] := by decide
example : newShape [0, 0] [2, 3, 4] = [2, 4] := by decide
example : sourceIdx [0, 0] 3 [1, 3] = [1, 1, 3] := by decide
example : ¬ Fits [2, 2] 3 ∧ ¬ Fits [0, 1, 2] 2 := by decide

end Verif.Reorder
