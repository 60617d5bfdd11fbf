import Verif.Take.Spec
/-!
# Shifts and Reverse: specification

`𝕨»𝕩` is the first `n` major cells of `𝕨∾𝕩`, and `𝕨«𝕩` the last `n` major cells of `𝕩∾𝕨`, where `n` is the number of major cells of `𝕩`. A `𝕨` of one rank less is one cell.
Without `𝕨` a cell of fills is shifted in.
-/
namespace Verif.Shift

/-- A major cell of `𝕨` or of `𝕩`. -/
inductive Src
  | w (i : Nat)
  | x (i : Nat)
deriving DecidableEq

/-- Where major cell `i` of the result comes from, if `𝕨` has `m` cells and `𝕩` has `n`. -/
def source (after : Bool) (m n i : Nat) : Src :=
  if after then if i + m < n then .x (i + m) else .w (i + m - n)
  else if i < m then .w i else .x (i - m)

/-- `𝕨` with cells of shape `cell`: the number of cells, or `none` if it doesn't fit. -/
def cells (wsh cell : List Nat) : Option Nat :=
  if wsh = cell then some 1
  else match wsh with
  | m :: c => if c = cell then some m else none
  | [] => none

example : cells [4, 3] [3] = some 4 := by decide
example : cells [3] [3] = some 1 := by decide
example : cells [4, 3] [2] = none := by decide
example : (List.range 5).map (source false 2 5) = [.w 0, .w 1, .x 0, .x 1, .x 2] := by decide
example : (List.range 5).map (source true 2 5) = [.x 2, .x 3, .x 4, .w 0, .w 1] := by decide
example : (List.range 2).map (source true 3 2) = [.w 1, .w 2] := by decide

end Verif.Shift
