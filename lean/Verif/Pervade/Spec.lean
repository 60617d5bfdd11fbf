import Verif.Bins.Spec
import Verif.Rotate.Spec
/-!
# Comparisons and Each: specification

Values as trees, how two atoms compare, and how the elements of two arrays are paired.
-/
namespace Verif.Pervade
open Verif.Bins (ofInt)
open Verif.Rotate (prod)

/-- A value: a number given by the bits of its double, a character, a function (or modifier or namespace), or an array with
its shape and its elements in the order of their indices. -/
inductive T
  | num (f : BitVec 64)
  | chr (c : BitVec 32)
  | fn (id : Nat)
  | arr (sh : List Nat) (xs : List T)

def T.atom : T → Bool
  | .arr _ _ => false
  | _ => true

/-- The six comparisons. -/
inductive Op | le | lt | ge | gt | eq | ne
deriving DecidableEq

/-- Of integers. -/
def Op.int : Op → Int → Int → Bool
  | .le, a, b => a ≤ b
  | .lt, a, b => a < b
  | .ge, a, b => b ≤ a
  | .gt, a, b => b < a
  | .eq, a, b => a = b
  | .ne, a, b => a ≠ b

/-- Of doubles: `Compare.key` numbers the doubles in their order.  A NaN is different from everything and neither less nor
greater than anything. -/
def Op.dbl (op : Op) (f g : BitVec 64) : Bool :=
  if Compare.nan f || Compare.nan g then op = .ne else op.int (Compare.key f) (Compare.key g)

/-- Of atoms: characters by their codes, every number is less than every character, functions are only equal or different,
as told by `same`. -/
def rel (same : Nat → Nat → Bool) (op : Op) : T → T → Option Bool
  | .num f, .num g => some (op.dbl f g)
  | .chr c, .chr d => some (op.int c.toNat d.toNat)
  | .num _, .chr _ => some (op.int 0 1)
  | .chr _, .num _ => some (op.int 1 0)
  | .fn i, .fn j => match op with | .eq => some (same i j) | .ne => some (!same i j) | _ => none
  | .arr _ _, _ => none
  | _, .arr _ _ => none
  | _, _ => match op with | .eq => some false | .ne => some true | _ => none

def truth (b : Bool) : T := .num (ofInt b.toNat)

/-- `y` comes from `w` and `x` by comparing atoms: an atom is paired with every element of an array; of two arrays the shape
of one begins with that of the other one, and each element of the shorter shape is paired with a whole cell of the other. -/
inductive Pairs (p : T → T → Option Bool) : T → T → T → Prop
  | atoms {w x b} : w.atom = true → x.atom = true → p w x = some b → Pairs p w x (truth b)
  | left {w sh xs ys} : w.atom = true → ys.length = xs.length →
      (∀ (i : Nat) x y, xs[i]? = some x → ys[i]? = some y → Pairs p w x y) → Pairs p w (.arr sh xs) (.arr sh ys)
  | right {x sh ws ys} : x.atom = true → ys.length = ws.length →
      (∀ (i : Nat) w y, ws[i]? = some w → ys[i]? = some y → Pairs p w x y) → Pairs p (.arr sh ws) x (.arr sh ys)
  | short {sh t ws xs ys} : ys.length = xs.length →
      (∀ (i : Nat) w x y, ws[i / prod t]? = some w → xs[i]? = some x → ys[i]? = some y → Pairs p w x y) →
      Pairs p (.arr sh ws) (.arr (sh ++ t) xs) (.arr (sh ++ t) ys)
  | long {sh t ws xs ys} : ys.length = ws.length →
      (∀ (i : Nat) w x y, ws[i]? = some w → xs[i / prod t]? = some x → ys[i]? = some y → Pairs p w x y) →
      Pairs p (.arr (sh ++ t) ws) (.arr sh xs) (.arr (sh ++ t) ys)

end Verif.Pervade
