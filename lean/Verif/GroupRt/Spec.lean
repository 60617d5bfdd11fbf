/-
C84: lengths and order of groups.
-/
namespace Verif.GroupRt

/-- How many elements of `x` are `k`. -/
def occurrences (k : Int) (x : List Int) : Nat := (x.filter fun v => decide (v = k)).length

/-- How many elements of `x` go to groups before group `k`; elements that are ¯1 go nowhere. -/
def earlier (k : Int) (x : List Int) : Nat := (x.filter fun v => decide (0 ≤ v ∧ v < k)).length

/-- `n` groups are enough for the indices `x`, and for the number asked for. -/
def Enough (asked : Int) (x : List Int) (n : Nat) : Prop := asked ≤ n ∧ ∀ v ∈ x, v < n

/-- The place of element `i` if groups follow each other and each is in the order of `x`. -/
def place (x : List Int) (i : Nat) (v : Int) : Nat := earlier v x + occurrences v (x.take i)

end Verif.GroupRt
