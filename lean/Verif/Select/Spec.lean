import Verif.Rep.Model
/-!
# Select: specification
-/
namespace Verif.Select

/-- The position that an index means in `n` cells: from 0 at the start, or from -1 at the end. -/
def position (n : Nat) (i : Int) : Option Nat := if 0 ≤ i ∧ i < n then some i.toNat else if -n ≤ i ∧ i < 0 then some (n + i).toNat else none

/-- The positions that all indices mean, if all of them mean one; `none` for an index is a number that is not an integer. -/
def positions (n : Nat) : List (Option Int) → Option (List Nat)
  | [] => some []
  | some i :: is => (position n i).bind fun p => (positions n is).map (p :: ·)
  | none :: _ => none

/-- An error where there is no value. -/
def orErr {β} : Option β → Rep.Out β
  | none => .err
  | some v => .ok v

/-- The cells at these positions. -/
def at_ {α} (ps : List Nat) (cells : List α) : List α := ps.flatMap fun p => (cells[p]?).toList

example : position 3 (-1) = some 2 := by decide
example : position 3 3 = none := by decide
example : positions 3 [some 0, some (-3), some 2] = some [0, 0, 2] := by decide
example : positions 3 [some 0, some (-4), some 2] = none := by decide
example : at_ [0, 0, 2] ['a', 'b', 'c'] = ['a', 'a', 'c'] := by decide

end Verif.Select
