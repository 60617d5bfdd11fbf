/-!
# Specification of integer reductions

A list of integers has a sum, product, minimum and maximum in the usual sense. `IsF64Int` says which integers a double
represents exactly (a sufficient condition, well inside the finite range).
-/
namespace Verif.Sum

/-- `z = m·2^e` with `|m| ≤ 2^53`: exactly representable as an IEEE double. -/
def IsF64Int (z : Int) : Prop := ∃ (m : Int) (e : Nat), z = m * 2^e ∧ -2^53 ≤ m ∧ m ≤ 2^53 ∧ e ≤ 970

/-- The part of IEEE 754 assumed of double addition: a representable sum of representable integers is exact. -/
def ExactAdd (fadd : Int → Int → Int) : Prop :=
  ∀ a b, IsF64Int a → IsF64Int b → IsF64Int (a + b) → fadd a b = a + b

/-- The part of IEEE 754 assumed of double multiplication. -/
def ExactMul (fmul : Int → Int → Int) : Prop :=
  ∀ a b, IsF64Int a → IsF64Int b → IsF64Int (a * b) → fmul a b = a * b

/-- Product of a list. -/
def prod : List Int → Int
  | [] => 1
  | x :: xs => x * prod xs

/-- `m` is the least element of `x`. -/
def IsMin (x : List Int) (m : Int) : Prop := m ∈ x ∧ ∀ v ∈ x, m ≤ v
/-- `m` is the greatest element of `x`. -/
def IsMax (x : List Int) (m : Int) : Prop := m ∈ x ∧ ∀ v ∈ x, v ≤ m

/-- `a∨b` on numbers is `a+b-a×b`; `∨´` folds from the right. -/
def orFold : List Int → Int
  | [] => 0
  | x :: xs => x + orFold xs - x * orFold xs

/-- The values an element type of `bits` bits can hold. -/
def InRange (bits : Nat) (x : List Int) : Prop := ∀ v ∈ x, -2^(bits-1) ≤ v ∧ v ≤ 2^(bits-1) - 1

end Verif.Sum
