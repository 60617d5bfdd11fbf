/-!
# What it means that a list of items can be joined

Items are given by their shapes.
-/
namespace Verif.Sizes

/-- The items `l` are cells of the shape `t` or arrays of such cells, the sum of their lengths is `n`, and one is an array of cells. -/
structure Joins (l : List (List Nat)) (t : List Nat) (n : Nat) : Prop where
  all : ∀ c ∈ l, c = t ∨ ∃ a, c = a :: t
  any : ∃ c ∈ l, ∃ a, c = a :: t
  len : n = (l.map fun c => if c = t then 1 else c.headD 0).sum

end Verif.Sizes
