/-!
# Model of `gcd_u64` and `lcm_u64` (`/repo/src/builtins/arithd.c` 480-501)

`u64` is `BitVec 64` with wrap-around subtraction, negation, shift and multiplication. `CTZ` of zero is undefined
behaviour in C (`__builtin_ctzll`), modelled as `none`. The `while(1)` loop takes fuel; running out of fuel is also
`none`, so the theorems (which show `some`) also show termination.
-/
namespace Verif.Gcd

abbrev U64 := BitVec 64

/-- Number of trailing zeros of a positive number (the value of `CTZ`, h.h 113, `__builtin_ctzll`). -/
def ctzNat (n : Nat) : Nat := if h : n = 0 then 0 else if n % 2 = 1 then 0 else 1 + ctzNat (n / 2)
termination_by n
decreasing_by omega

/-- `CTZ(x)`, undefined at 0. -/
def CTZ (x : U64) : Option Nat := if x = 0#64 then none else some (ctzNat x.toNat)

/-- arithd.c 488-495: the `while (1)` loop; returns the final `b`. -/
def gcdLoop : (fuel : Nat) → (a b : U64) → (az : Nat) → Option U64
  | 0, _, _, _ => none
  | fuel+1, a, b, az =>
    let a := a >>> az
    let d := b - a
    let b := if b.ult a then b else a
    if d = 0#64 then some b
    else
      let a := if b.ult a then -d else d
      match CTZ d with
      | none => none
      | some az => gcdLoop fuel a b az

/-- arithd.c 480-497 `gcd_u64`, with 129 iterations of fuel. -/
def gcd_u64 (a b : U64) : Option U64 :=
  if a = 0#64 then some b
  else if b = 0#64 then some a
  else
    match CTZ a, CTZ b with
    | some az, some bz =>
      let sh := if az < bz then az else bz
      match gcdLoop 129 a (b >>> bz) az with
      | some r => some (r <<< sh)
      | none => none
    | _, _ => none

/-- arithd.c 498-501 `lcm_u64`; division by zero would be undefined (`none`). -/
def lcm_u64 (a b : U64) : Option U64 :=
  if a = 0#64 ∨ b = 0#64 then some 0#64
  else match gcd_u64 a b with
    | some g => if g = 0#64 then none else some ((a / g) * b)
    | none => none

end Verif.Gcd
