/-!
# Specification of element-wise arithmetic on integers
-/
namespace Verif.Arith

/-- The dyadic arithmetic primitives with integer paths. -/
inductive Op where
  | add | sub | mul | and | or | min | max
deriving DecidableEq, Repr

/-- Their exact results on integers. -/
def Op.exact : Op → Int → Int → Int
  | .add, a, b => a + b
  | .sub, a, b => a - b
  | .mul, a, b => a * b
  | .and, a, b => a * b
  | .or, a, b => a + b - a * b
  | .min, a, b => if a ≤ b then a else b
  | .max, a, b => if a ≤ b then b else a

/-- Fits a signed integer of `n` bits. -/
def Fits (n : Nat) (v : Int) : Prop := -2^(n-1) ≤ v ∧ v ≤ 2^(n-1) - 1

/-- What is assumed of the arithmetic on two doubles holding 32-bit integers: a result that fits 32 bits is exact, and
any other stays outside 32 bits and below 2^63 after rounding. (All of it holds of IEEE arithmetic: the exact results
are below 2^63, and rounding is monotone.) -/
structure F64Arith (fop : Op → Int → Int → Int) : Prop where
  exact : ∀ op a b, Fits 32 a → Fits 32 b → Fits 32 (op.exact a b) → fop op a b = op.exact a b
  big : ∀ op a b, Fits 32 a → Fits 32 b → ¬ Fits 32 (op.exact a b) → ¬ Fits 32 (fop op a b) ∧ Fits 64 (fop op a b)

end Verif.Arith
