import Verif.Modulus.Spec
/-!
# Modulus of integers: model

`/repo/src/builtins/arithd.c` 6-10, 37-92, 179-208, 430, without Singeli.

An array is the list of its elements with its integer type; shapes are checked before these functions (C51 models the same checks of the comparisons). The powers of 2 with an array of integers are in `Verif.Arith` (lines 182-202, C14). `C2(mul,…)` and `C2(sub,…)` on arrays of numbers are exact where integers are enough and rounded as doubles elsewhere (`Verif.Arith`, C13), and as integers of fewer than 53 bits aren't changed by rounding, they're the rounded operations here. Squeezing (C11) doesn't change elements.
-/
namespace Verif.Modulus

/-- Integer types, `el_bit` to `el_i32`. -/
inductive ITy
  | bit | i8 | i16 | i32

/-- `e <= el_i16`. -/
def ITy.small : ITy → Bool
  | .i32 => false
  | _ => true

/-- The integers of the type. -/
def ITy.Has : ITy → ℤ → Prop
  | .bit, n => n = 0 ∨ n = 1
  | .i8, n => -2^7 ≤ n ∧ n < 2^7
  | .i16, n => -2^15 ≤ n ∧ n < 2^15
  | .i32, n => -2^31 ≤ n ∧ n < 2^31

/-- Division of C, of numbers with `p` bits. -/
def div (p : ℕ) (a b : ℚ) : D :=
  if b = 0 then if a = 0 then .nan else if 0 < a then .pinf else .ninf
  else .fin (rnd p (a / b))

/-- `floor` and `floorf`, which are exact. -/
def D.floor : D → D
  | .fin q => .fin (⌊q⌋ : ℤ)
  | d => d

/-- Multiplication of doubles. -/
def D.mul : D → D → D
  | .fin a, .fin b => .fin (rnd 53 (a * b))
  | .nan, _ => .nan
  | _, .nan => .nan
  | .fin a, .pinf | .pinf, .fin a => if a = 0 then .nan else if 0 < a then .pinf else .ninf
  | .fin a, .ninf | .ninf, .fin a => if a = 0 then .nan else if 0 < a then .ninf else .pinf
  | .pinf, .pinf | .ninf, .ninf => .pinf
  | .pinf, .ninf | .ninf, .pinf => .ninf

/-- Subtraction of doubles. -/
def D.sub : D → D → D
  | .fin a, .fin b => .fin (rnd 53 (a - b))
  | .nan, _ => .nan
  | _, .nan => .nan
  | .fin _, .pinf => .ninf
  | .fin _, .ninf => .pinf
  | .pinf, .pinf | .ninf, .ninf => .nan
  | .pinf, _ => .pinf
  | .ninf, _ => .ninf

def int (n : ℤ) : D := .fin n

/-- Storing a floating-point number as an integer of `n` bits; `none` is undefined behaviour. -/
def store (n : ℕ) (q : ℚ) : Option ℤ := if -2^(n-1) ≤ ⌊q⌋ ∧ ⌊q⌋ < 2^(n-1) then some ⌊q⌋ else none

/-- One element of `floordiv_AA`, 57-67: `w÷x` rounded down; `small` is `we<=el_i16`. The second case is `divint_AA`, 42-47, and then `⌊`. -/
def floordivAA (small : Bool) (w x : ℤ) : D :=
  if small then (div 24 (rnd 24 w) (rnd 24 x)).floor
  else (div 53 (rnd 53 w) (rnd 53 x)).floor

/-- The loops of `floordiv_AS`, 74-85, with numbers of `p` bits, 24 or 53. -/
def recipFloor (p : ℕ) (xv w : ℤ) : ℚ :=
  let xr := rnd p (1 / rnd p xv)
  let off := rnd p (rnd 53 (1/2 * |xr|))
  rnd p (rnd p (rnd p w * xr) + off)

/-- One element of `floordiv_AS`, 68-87; `none` is undefined behaviour. -/
def floordivAS (small : Bool) (w xv : ℤ) : Option D :=
  if xv = 1 then some (int w)
  else if xv = -1 then some (int (-w))
  else if xv = 0 then some ((int w).mul .pinf)
  else if small then (store 16 (recipFloor 24 xv w)).map int
  else (store 32 (recipFloor 53 xv w)).map int

/-- `modint_AA`, 90: `w|x`, for two lists, `x` of type `t`. -/
def modAA (t : ITy) (w x : List ℤ) : List D :=
  List.zipWith (fun w x => (int x).sub ((int w).mul (floordivAA t.small x w))) w x

/-- `modint_SA`, 91: `wv|x`. -/
def modSA (t : ITy) (wv : ℤ) (x : List ℤ) : Option (List D) :=
  x.mapM fun x => (floordivAS t.small x wv).map fun q => (int x).sub ((int wv).mul q)

/-- The type that `reshape_one` picks, `/repo/src/builtins/sfns.c` 148-163. -/
def typeOf (n : ℤ) : ITy :=
  if -2^7 ≤ n ∧ n < 2^7 then if n = 0 ∨ n = 1 then .bit else .i8
  else if -2^15 ≤ n ∧ n < 2^15 then .i16 else .i32

/-- `modint_AS`, 92: `w|xv`. -/
def modAS (w : List ℤ) (xv : ℤ) : List D := modAA (typeOf xv) w (List.replicate w.length xv)

/-- `fmod` of the C library, which is exact; `none` for NaN. -/
def fmod (a b : ℚ) : Option ℚ := if b = 0 then none else some (a - b * (if 0 ≤ a / b then ⌊a / b⌋ else ⌈a / b⌉ : ℤ))

/-- `pfmod`, 6-10, for `w|x` on atoms, 430, and for arrays of doubles. -/
def pfmod (a b : ℚ) : D :=
  match fmod a b with
  | none => .nan
  | some r => if decide (a < 0) ≠ decide (b < 0) ∧ r ≠ 0 then .fin (rnd 53 (r + b)) else .fin r

end Verif.Modulus
