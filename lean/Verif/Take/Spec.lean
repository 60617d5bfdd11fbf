import Verif.Rotate.Spec
/-!
# Take and Drop: specification

Along an axis of length `s`, `w↑` gives `|w|` elements from the start, or from the end if `w` is negative, and `w↓` leaves `|w|` elements out.
-/
namespace Verif.Take

/-- The length of an axis of length `s` of the result. -/
def newLen (take : Bool) (w : Int) (s : Nat) : Nat := if take then w.natAbs else s - w.natAbs

/-- The index in the argument of the element at `i`; `none` if there is no such element, and the result has a fill there. -/
def source (take : Bool) (w : Int) (s i : Nat) : Option Nat :=
  match take, decide (w < 0) with
  | true, false => if i < s then some i else none
  | true, true => if w.natAbs ≤ i + s then some (i + s - w.natAbs) else none
  | false, false => some (i + w.natAbs)
  | false, true => some i

/-- The shape of the result, for an amount per axis. -/
def newShape (take : Bool) : List Int → List Nat → List Nat
  | w :: ws, s :: sh => newLen take w s :: newShape take ws sh
  | _, _ => []

/-- The index in the argument, for an amount per axis; `none` if it's outside along some axis. -/
def sources (take : Bool) : List Int → List Nat → List Nat → Option (List Nat)
  | w :: ws, s :: sh, i :: is => (source take w s i).bind fun j => (sources take ws sh is).map (j :: ·)
  | _, _, _ => some []

/-- The shape of the argument with leading axes of length 1 for a longer `𝕨`. -/
def padShape (n : Nat) (sh : List Nat) : List Nat := List.replicate (n - sh.length) 1 ++ sh

/-- An amount for every axis: the axes that `𝕨` has no amount for are kept. -/
def padAmounts (take : Bool) (ws : List Int) (sh : List Nat) : List Int := ws ++ (sh.drop ws.length).map fun (s : Nat) => if take then (s : Int) else 0

example : newShape true [-3, 2] [2, 5] = [3, 2] := by decide
example : sources true [-3, 2] [2, 5] [1, 1] = some [0, 1] := by decide
example : sources true [-3, 2] [2, 5] [0, 1] = none := by decide
example : sources false [1, -2] [4, 5] [2, 2] = some [3, 2] := by decide

end Verif.Take
