import Verif.Sort.DispatchLemmas
/-!
# What bins means

`𝕨⍋𝕩`, for a list `𝕨` in ascending order, has for each element of `𝕩` the number of elements of `𝕨` that do not come after it;
`𝕨⍒𝕩` is the same for the descending order.
-/
namespace Verif.Bins
open Verif.Sort

/-- `a` does not come after `v`, in the ascending (`up`) or the descending order of values. -/
def notAfter (up : Bool) (a v : Value) : Bool := if up then decide (cmpValue a v ≤ 0) else decide (cmpValue v a ≤ 0)

/-- In order. -/
def InOrder (up : Bool) (ws : List Value) : Prop := ws.Pairwise fun a b => notAfter up a b = true

/-- How many elements do not come after `v`. -/
def bin (up : Bool) (ws : List Value) (v : Value) : Nat := (ws.filter fun a => notAfter up a v).length

/-- The double with the value of an integer of fewer than 54 bits: sign, exponent, fraction. -/
def ofInt (i : Int) : BitVec 64 :=
  let m := i.natAbs
  if m = 0 then 0#64
  else BitVec.ofNat 64 ((if i < 0 then 2^63 else 0) + (1023 + m.log2) * 2^52 + (m - 2^m.log2) * 2^(52 - m.log2))

def numV (f : BitVec 64) : Value := ⟨.num f, trivial⟩
def chrV (c : Nat) : Value := ⟨.chr c, trivial⟩

end Verif.Bins
