/-!
# What sorting and grading mean

`c` compares two elements: negative if the first comes before the second, zero if they are equivalent.
-/
namespace Verif.Sort

/-- A comparison that can be sorted by: exchanging the arguments exchanges the answer, and "not after" is transitive. -/
structure Order (c : α → α → Int) : Prop where
  neg : ∀ a b, c a b < 0 ↔ 0 < c b a
  trans : ∀ a b d, c a b ≤ 0 → c b d ≤ 0 → c a d ≤ 0

/-- The same elements: for every `x` the elements equivalent to `x`, in the same order. -/
def SameClasses (c : α → α → Int) (xs r : List α) : Prop := ∀ x, r.filter (fun y => c x y = 0) = xs.filter fun y => c x y = 0

/-- `r` is `xs` in order, and equivalent elements are in the order they have in `xs`. -/
def IsSort (c : α → α → Int) (xs r : List α) : Prop := r.Pairwise (fun a b => c a b ≤ 0) ∧ SameClasses c xs r

/-- `r` has every index of `xs` once, in the order of the elements, with equivalent elements by index. -/
def IsGrade (c : α → α → Int) (xs : List α) (r : List Nat) : Prop :=
  r.Perm (List.range xs.length) ∧
  r.Pairwise fun i j => ∃ a b, xs[i]? = some a ∧ xs[j]? = some b ∧ (c a b < 0 ∨ (c a b = 0 ∧ i < j))

/-- Integers: ascending, or descending. -/
def intOrder (up : Bool) (a b : Int) : Int := if up then a - b else b - a

/-- Booleans. -/
def boolOrder (up : Bool) (a b : Bool) : Int := intOrder up a.toNat b.toNat

end Verif.Sort
