import Verif.Pervade.Spec
/-!
# Arithmetic with one argument: specification

Values are the trees of `Pervade/Spec.lean`; a number is given by the 64 bits of its double.
-/
namespace Verif.Monarith
open Verif.Pervade (T)
open Verif.Bins (ofInt)

/-- The functions: `+ - | ⌊ ⌈ × ¬ ÷ √` with one argument. -/
inductive Fn
  | plus | minus | abs | floor | ceil | sign | not | recip | sqrt
deriving DecidableEq

/-- What doubles do that isn't described here: subtraction, and the functions of the C library. -/
structure Flt where
  sub : BitVec 64 → BitVec 64 → BitVec 64
  floor : BitVec 64 → BitVec 64
  ceil : BitVec 64 → BitVec 64
  recip : BitVec 64 → BitVec 64
  sqrt : BitVec 64 → BitVec 64

/-- Equal numbers: both are NaN, or they have the same value, so that the two zeroes are equal. -/
def Equal (a b : BitVec 64) : Prop := Compare.nan a = Compare.nan b ∧ (Compare.nan a = false → Compare.key a = Compare.key b)

/-- The other sign. -/
def neg (v : BitVec 64) : BitVec 64 := v ^^^ 0x8000000000000000#64

/-- What is known about doubles: `0-v` is `v` with the other sign; `1-n` and `0-n` are exact for integers of 32 bits; equal numbers have equal differences; and `⌊`, `⌈` leave integers as they are. -/
structure Flt.Ieee (F : Flt) : Prop where
  zero : ∀ v, Equal (F.sub (ofInt 0) v) (neg v)
  int : ∀ c n : Int, c = 0 ∨ c = 1 → -2147483648 ≤ n → n ≤ 2147483647 → Equal (F.sub (ofInt c) (ofInt n)) (ofInt (c - n))
  congr : ∀ a b, Equal a b → Equal (F.sub (ofInt 1) a) (F.sub (ofInt 1) b)
  floor : ∀ n : Int, -2147483648 ≤ n → n ≤ 2147483647 → Equal (F.floor (ofInt n)) (ofInt n)
  ceil : ∀ n : Int, -2147483648 ≤ n → n ≤ 2147483647 → Equal (F.ceil (ofInt n)) (ofInt n)

/-- The function on one number. `×` of a NaN is `¯1`. -/
def Fn.value (F : Flt) : Fn → BitVec 64 → BitVec 64
  | .plus, v => v
  | .minus, v => neg v
  | .abs, v => if v.toNat < 2^63 then v else neg v
  | .floor, v => F.floor v
  | .ceil, v => F.ceil v
  | .sign, v => if Compare.nan v then ofInt (-1) else if Compare.key v = 0 then ofInt 0 else if Compare.key v > 0 then ofInt 1 else ofInt (-1)
  | .not, v => F.sub (ofInt 1) v
  | .recip, v => F.recip v
  | .sqrt, v => F.sqrt v

/-- `y` comes from `x` by applying `p` to every number in it, at any depth. There is no such `y` if there's a character or a function somewhere in `x`. -/
inductive Maps (p : BitVec 64 → BitVec 64) : T → T → Prop
  | num {v w} : Equal w (p v) → Maps p (.num v) (.num w)
  | arr {sh xs ys} : ys.length = xs.length → (∀ (i : Nat) x y, xs[i]? = some x → ys[i]? = some y → Maps p x y) → Maps p (.arr sh xs) (.arr sh ys)

end Verif.Monarith
