/-
C86: references during Each.

A function that is given references owns them: it has to give each of them away once, and can give away no other.
`Hand` counts the references to each value that a function owns at a moment.
-/
namespace Verif.EachRef

/-- A value: which one it is. -/
abbrev V := Nat

/-- How many references to each value are owned. -/
abbrev Hand := V → Nat

/-- One reference. -/
def one (v : V) : Hand := fun i => if i = v then 1 else 0

/-- An argument: the value, its rank, its elements if it is an array, and whether it may be overwritten. -/
structure Arg where
  v : V
  isArr : Bool
  rank : Nat
  els : List V
  reuse : Bool

/-- The elements that Each goes through: those of an array, or the atom. -/
def Arg.items (a : Arg) : List V := if a.isArr then a.els else [a.v]

/-- An atom has rank 0 and cannot be overwritten; an array of rank 0 has one element. -/
def Arg.Ok (a : Arg) : Prop :=
  (a.isArr = false → a.rank = 0 ∧ a.reuse = false) ∧ (a.isArr = true → a.rank = 0 → a.els.length = 1)

/-- The leading axes agree: each item of the argument with the lower rank belongs to equally many of the other. -/
def Agree (w x : Arg) : Prop :=
  (w.rank = x.rank → w.items.length = x.items.length) ∧
  (w.rank ≤ x.rank → ∃ n, x.items.length = w.items.length * n) ∧
  (x.rank ≤ w.rank → ∃ n, w.items.length = x.items.length * n)

/-- How many results there are: as many as the argument with the higher rank has items. -/
def count (w x : Arg) : Nat := if x.rank < w.rank then w.items.length else x.items.length

/-- Item `i` of `n` results is made from this item of an argument. -/
def Arg.at (a : Arg) (n i : Nat) : Option V := a.items[i / (n / a.items.length)]?

end Verif.EachRef
