/-!
# Specification of value kinds, independent of the C code

A word is read as the IEEE 754 binary64 layout: sign (bit 63), exponent (bits 52-62), quiet bit (bit 51) and the
51 remaining mantissa bits; and as a 16-bit tag plus a 48-bit payload.
-/
namespace Verif.NanBox.Spec

/-- Exponent field of binary64. -/
def exponent (x : BitVec 64) : Nat := x.toNat / 2^52 % 2^11
/-- Quiet bit (top mantissa bit). -/
def quiet (x : BitVec 64) : Nat := x.toNat / 2^51 % 2
/-- Mantissa without the quiet bit. -/
def lowMantissa (x : BitVec 64) : Nat := x.toNat % 2^51

/-- IEEE 754 signalling NaN: exponent all ones, quiet bit clear, mantissa non-zero. -/
def SignallingNaN (x : BitVec 64) : Prop := exponent x = 2^11 - 1 ∧ quiet x = 0 ∧ lowMantissa x ≠ 0

/-- The sign bit. -/
def sign (x : BitVec 64) : Nat := x.toNat / 2^63

/-- The 16-bit tag and the 48-bit payload. -/
def tag16 (x : BitVec 64) : Nat := x.toNat / 2^48
def low48 (x : BitVec 64) : Nat := x.toNat % 2^48

/-- Kinds of BQN value (plus the internal tagged words). -/
inductive Kind where
  | num | chr | special | var | extVar | md1 | md2 | fn | ns | obj | arr
deriving DecidableEq, Repr

/-- The tag of each kind that is not a number, as documented in the table of h.h 182-196. -/
def Kind.tag : Kind → Option Nat
  | .num => none | .chr => some 0x7FF1 | .special => some 0x7FF2 | .var => some 0x7FF3 | .extVar => some 0x7FF4
  | .md1 => some 0xFFF2 | .md2 => some 0xFFF3 | .fn => some 0xFFF4 | .ns => some 0xFFF5
  | .obj => some 0xFFF6 | .arr => some 0xFFF7

/-- A word has a kind when it is a number (any double that is not a signalling NaN) or carries that kind's tag. -/
def HasKind (x : BitVec 64) : Kind → Prop
  | .num => ¬ SignallingNaN x
  | k => k.tag = some (tag16 x)

end Verif.NanBox.Spec
