/-!
# Indices, Replicate and the inverse of Indices: specification
-/
namespace Verif.Rep

/-- The list as natural numbers, if all elements are; `none` for an element is a number that is not an integer. -/
def naturals : List (Option Int) → Option (List Nat)
  | [] => some []
  | some z :: zs => if z < 0 then none else (naturals zs).map (z.toNat :: ·)
  | none :: _ => none

/-- Every index, as many times as its number says, in order. -/
def indices (ns : List Nat) : List Nat := (List.range ns.length).flatMap fun i => List.replicate (ns.getD i 0) i

/-- Every element, as many times as its number says, in order. -/
def copies {α} (ns : List Nat) (xs : List α) : List α := (ns.zip xs).flatMap fun (c, x) => List.replicate c x

/-- How many times each number up to the greatest one occurs. -/
def occurrences (ns : List Nat) : List Nat := (List.range (ns.foldl (fun m n => max m (n + 1)) 0)).map fun i => ns.count i

/-- The list without the zeros at its end. -/
def dropZeros (ns : List Nat) : List Nat := (ns.reverse.dropWhile (· == 0)).reverse

example : indices [2, 0, 3] = [0, 0, 2, 2, 2] := by decide
example : copies [2, 0, 3] ['a', 'b', 'c'] = ['a', 'a', 'c', 'c', 'c'] := by decide
example : occurrences [0, 0, 2, 2, 2] = [2, 0, 3] := by decide
example : dropZeros [2, 0, 3, 0, 0] = [2, 0, 3] := by decide

end Verif.Rep
