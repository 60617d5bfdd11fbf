/-!
# Specification of Fold (`𝔽´`): right to left
-/
namespace Verif.Fold.Spec

/-- `𝔽´𝕩` for a non-empty list: `x₀ 𝔽 (x₁ 𝔽 (… 𝔽 xₙ₋₁))`. `none` on the empty list. -/
def fold {α} (f : α → α → α) : List α → Option α
  | [] => none
  | [x] => some x
  | x :: y :: xs => (fold f (y :: xs)).map (f x)

/-- `𝕨𝔽´𝕩`: the same with `𝕨` as the rightmost operand. -/
def foldInit {α} (f : α → α → α) (w : α) : List α → α
  | [] => w
  | x :: xs => f x (foldInit f w xs)

/-- Booleans as the numbers 0 and 1. -/
def num (b : Bool) : Int := if b then 1 else 0

/-- The arithmetic and comparison functions of BQN restricted to integers. `∧` is multiplication and `∨` is
`a + b - a×b`. -/
inductive Fn where
  | and | or | mul | floor | ceil | add | sub | ne | eq | lt | le | gt | ge
deriving DecidableEq, Repr

/-- The value of `a 𝔽 b`. -/
def Fn.app : Fn → Int → Int → Int
  | .and, a, b => a * b
  | .or, a, b => a + b - a * b
  | .mul, a, b => a * b
  | .floor, a, b => min a b
  | .ceil, a, b => max a b
  | .add, a, b => a + b
  | .sub, a, b => a - b
  | .ne, a, b => num (a ≠ b)
  | .eq, a, b => num (a = b)
  | .lt, a, b => num (a < b)
  | .le, a, b => num (a ≤ b)
  | .gt, a, b => num (a > b)
  | .ge, a, b => num (a ≥ b)

end Verif.Fold.Spec
