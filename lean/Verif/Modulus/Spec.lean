import Mathlib.Data.Int.Log
import Mathlib.Data.Rat.Floor
/-!
# Modulus of integers: specification
-/
namespace Verif.Modulus

/-- `r` is what remains of `x` when multiples of `w` are taken away; it has the sign of `w` or is 0, and is less than `w` in size. -/
def Rem (w x r : ℤ) : Prop := (∃ k, x = w * k + r) ∧ (0 < w → 0 ≤ r ∧ r < w) ∧ (w < 0 → w < r ∧ r ≤ 0)

/-! ## Numbers of C

The value of a `float` has 24 bits, that of a `double` 53. Exponents have no limits here; all numbers below are 0 or between 2⋆¯60 and 2⋆60 in size. The sign of a zero isn't kept. -/

/-- The nearest integer, the even one of two. -/
def near (t : ℚ) : ℤ :=
  let f := ⌊t⌋
  let d := t - f
  if d < 1/2 then f else if 1/2 < d then f + 1 else if f % 2 = 0 then f else f + 1

/-- `q` rounded to a significand of `p` bits, to nearest, ties to even, for any exponent. -/
def rnd (p : ℕ) (q : ℚ) : ℚ :=
  if q = 0 then 0 else
    let s : ℚ := 2 ^ (Int.log 2 |q| + 1 - p)
    near (q / s) * s

/-- The values of floating-point numbers. -/
inductive D
  | fin (q : ℚ)
  | pinf
  | ninf
  | nan

end Verif.Modulus
