import Verif.Cells.Spec
/-!
# Join: specification

`∾𝕩` puts the elements of an array together along its axes. Along each axis of `𝕩` all elements at one position have the same length, or none of them has the axis, and then they count as one cell; some position has the axis.
The axes that elements have besides are the same for all.
-/
namespace Verif.Join
open Verif.Cells (Arr Val)
open Verif.Rotate (prod InShape ravel)
variable {E : Type}

/-- For each position along an axis of `𝕩` how long the elements there are; `none` if they don't have the axis. -/
abbrev Lens := List (Option Nat)

/-- How much room a position takes. -/
def room (n : Option Nat) : Nat := n.getD 1

/-- The room of all positions, and of the first `i`. -/
def total (l : Lens) : Nat := (l.map room).sum
def start (l : Lens) (i : Nat) : Nat := total (l.take i)

/-- The shape of the element at an index of `𝕩`: a length for every axis that it has, and then the common axes. -/
def elementShape : List Lens → List Nat → List Nat → List Nat
  | l :: ls, i :: is, t =>
    match l[i]? with
    | some (some n) => n :: elementShape ls is t
    | _ => elementShape ls is t
  | _, _, t => t

/-- The elements fit together with these lengths and these common axes. -/
structure Fits (x : Arr (Val E)) (ls : List Lens) (t : List Nat) : Prop where
  lengths : ls.map List.length = x.sh
  present : ∀ l ∈ ls, ∃ n, some n ∈ l
  shapes : ∀ is v, InShape x.sh is → x.els[ravel x.sh is]? = some v → v.sh = elementShape ls is t

/-- The room the element at an index of `𝕩` takes along each axis. -/
def block : List Lens → List Nat → List Nat
  | l :: ls, i :: is => room (l[i]?.getD none) :: block ls is
  | _, _ => []

/-- Where something in the block of the element at `is` is in the result: after the blocks before it. -/
def place : List Lens → List Nat → List Nat → List Nat
  | l :: ls, i :: is, k :: ks => (start l i + k) :: place ls is ks
  | _, _, _ => []

/-- The index in the element itself: without the axes that it doesn't have. -/
def own : List Lens → List Nat → List Nat → List Nat
  | l :: ls, i :: is, k :: ks =>
    match l[i]? with
    | some (some _) => k :: own ls is ks
    | _ => own ls is ks
  | _, _, _ => []

/-- `r` is the elements of `𝕩` put together: its shape, and that each element of each element is where it should be. -/
structure Joined (x : Arr (Val E)) (ls : List Lens) (t : List Nat) (r : Arr E) : Prop where
  shape : r.sh = ls.map total ++ t
  full : r.els.length = prod r.sh
  els : ∀ is v, InShape x.sh is → x.els[ravel x.sh is]? = some v → ∀ ks ts, InShape (block ls is) ks → InShape t ts →
    r.els[ravel r.sh (place ls is ks ++ ts)]? = v.els[ravel v.sh (own ls is ks ++ ts)]?

example : elementShape [[some 2, none], [some 3]] [1, 0] [5] = [3, 5] ∧ block [[some 2, none], [some 3]] [1, 0] = [1, 3] ∧
    place [[some 2, none], [some 3]] [1, 0] [0, 2] = [2, 2] ∧ own [[some 2, none], [some 3]] [1, 0] [0, 2] = [2] := by decide

end Verif.Join
