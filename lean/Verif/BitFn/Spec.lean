import Verif.Squeeze.Spec
import Verif.Rotate.Spec
/-!
# `•bit`: specification

An array seen as a sequence of bits: every element is a number of some width, the lowest bit first, and the elements
follow each other in the order of their indices.  `•bit._cast` changes the width and keeps the bits; the other functions
of `•bit` cut the bits into pieces of one width and work on each piece as an unsigned number.
-/
namespace Verif.BitFn
open Verif.Squeeze (Val El Same)
open Verif.Bins (ofInt)

/-- Bits of an element. -/
def width : El → Nat
  | .bit => 1 | .i8 => 8 | .i16 => 16 | .i32 => 32 | .f64 => 64
  | .c8 => 8 | .c16 => 16 | .c32 => 32 | .B => 64

/-- The integer that two's complement writes as `u` in `w` bits. -/
def signed (w u : Nat) : Int := if u < 2^(w-1) then u else (u : Int) - 2^w

/-- The element `v` is written as `u` in element type `t`: a boolean as itself, an integer in two's complement, a double by
its bits, a character by its code. -/
def Code : El → Val → Nat → Prop
  | .bit, v, u => Same v (.num (ofInt u))
  | .i8, v, u => Same v (.num (ofInt (signed 8 u)))
  | .i16, v, u => Same v (.num (ofInt (signed 16 u)))
  | .i32, v, u => Same v (.num (ofInt (signed 32 u)))
  | .f64, v, u => v = .num (BitVec.ofNat 64 u)
  | .c8, v, u | .c16, v, u | .c32, v, u => v = .chr (BitVec.ofNat 32 u)
  | .B, _, _ => False

/-- The elements, with width and kind of `t`, are the bits `b 0`, `b 1`, …. -/
def Reads (t : El) (vs : List Val) (b : Nat → Bool) : Prop :=
  ∀ i v, vs[i]? = some v → ∃ u, u < 2^width t ∧ Code t v u ∧ ∀ k, k < width t → b (width t * i + k) = u.testBit k

/-- An element of 𝕗: a number, or a list of a number and a character. -/
inductive Arg
  | wid (s : Nat)
  | pair (s : Nat) (t : Nat)

/-- The element type that it names; a width alone names characters if `chars`. -/
def named (chars : Bool) : Arg → Option El
  | .wid 1 => some .bit
  | .wid 8 => some (if chars then .c8 else .i8)
  | .wid 16 => some (if chars then .c16 else .i16)
  | .wid 32 => some (if chars then .c32 else .i32)
  | .wid 64 => some .f64
  | .pair 1 0x75 => some .bit
  | .pair 8 0x69 => some .i8
  | .pair 16 0x69 => some .i16
  | .pair 32 0x69 => some .i32
  | .pair 64 0x66 => some .f64
  | .pair 8 0x63 => some .c8
  | .pair 16 0x63 => some .c16
  | .pair 32 0x63 => some .c32
  | _ => none

/-- Bits `p`, `p+1`, …, `p+w-1` as a number. -/
def num (b : Nat → Bool) (p : Nat) : Nat → Nat
  | 0 => 0
  | w+1 => num b p w + 2^w * (b (p+w)).toNat

/-- Piece `i` of width `w`. -/
def piece (w : Nat) (b : Nat → Bool) (i : Nat) : Nat := num b (w*i) w

/-- What the functions of one argument do to a piece. -/
inductive Op1 | not | neg
deriving DecidableEq

def Op1.on (w : Nat) : Op1 → Nat → Nat
  | .not, a => 2^w - 1 - a
  | .neg, a => (2^w - a) % 2^w

/-- What the functions of two arguments do to two pieces. -/
inductive Op2 | and | or | xor | add | sub | mul
deriving DecidableEq

def Op2.on (w : Nat) : Op2 → Nat → Nat → Nat
  | .and, a, b => a &&& b
  | .or, a, b => a ||| b
  | .xor, a, b => a ^^^ b
  | .add, a, b => (a + b) % 2^w
  | .sub, a, b => (a + (2^w - b)) % 2^w
  | .mul, a, b => a * b % 2^w

/-- Width number `i` of the list 𝕗, in which the last one is repeated. -/
def nth (f : List Nat) (i : Nat) : Nat := f.getD (min i (f.length-1)) 0

/-- An argument that is a single piece: an atom, or a list. -/
def One (sh : List Nat) (w ow : Nat) : Prop := (sh = [] ∧ w = ow) ∨ ∃ m, sh = [m] ∧ w * m = ow

/-- The functions that work on single bits. -/
def Op2.bitwise : Op2 → Bool
  | .and | .or | .xor => true
  | _ => false

/-- The widths of the arithmetic functions. -/
def ArithW (w : Nat) : Prop := w = 8 ∨ w = 16 ∨ w = 32 ∨ w = 64

/-- The widths in 𝕗 are powers of two. -/
def Pows (f : List Nat) : Prop := ∀ s ∈ f, ∃ a, a < 32 ∧ s = 2^a

/-- As signed numbers of `w` bits, `a` and `b` have a product that fits in `w` bits; required only of 32 bits and more. -/
def Fits (w a b : Nat) : Prop := 32 ≤ w → -(2:Int)^(w-1) ≤ signed w a * signed w b ∧ signed w a * signed w b < 2^(w-1)

/-- A restriction for `mul` only. -/
def Defined (op : Op2) (w a b : Nat) : Prop := op = .mul → Fits w a b

end Verif.BitFn
