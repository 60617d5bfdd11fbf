/-
Values in foreign memory (C80): what the theorems talk about.

A pointer object of `•FFI` has a type, and `Write` and `Read` move BQN values to
and from the memory it points to.  This file says what the types are, how many
bytes each occupies, which values suit which type, and what reading back a value
has to give.  Nothing here mentions how the code does it.
-/
namespace Verif.Ffi

/-- The scalar types a C value can have. -/
inductive Sc
  | u8 | u16 | u32 | u64 | i8 | i16 | i32 | i64 | f32 | f64
deriving DecidableEq, Repr

/-- The element types of a reinterpreted value: `:u1`, `:i8`, `:i16`, `:i32`,
`:c8`, `:c16`, `:c32`, `:f64`. -/
inductive Re
  | u1 | i8 | i16 | i32 | c8 | c16 | c32 | f64
deriving DecidableEq, Repr

/-- `Sc.width s` is the number of bytes of a C value of type `s`. -/
def Sc.width : Sc → Nat
  | .u8 => 1 | .u16 => 2 | .u32 => 4 | .u64 => 8
  | .i8 => 1 | .i16 => 2 | .i32 => 4 | .i64 => 8
  | .f32 => 4 | .f64 => 8

/-- The number of bits of one element of a reinterpreted value. -/
def Re.bits : Re → Nat
  | .u1 => 1 | .i8 => 8 | .i16 => 16 | .i32 => 32
  | .c8 => 8 | .c16 => 16 | .c32 => 32 | .f64 => 64

mutual
/-- Types of values in memory.  `void` only occurs as the target of an untyped
pointer.  `repr (some s) r` is `s:r`, and `repr none r` is `*:r`.  `agg` is a
structure (`false`) or an array (`true`), with its size in bytes and its
fields. -/
inductive Ty
  | void
  | sc (s : Sc)
  | ptr (e : Ty)
  | repr (base : Option Sc) (r : Re)
  | agg (isArr : Bool) (size : Nat) (fs : Flds)
/-- Fields, each with its offset from the start of the structure. -/
inductive Flds
  | nil
  | cons (off : Nat) (t : Ty) (rest : Flds)
end

/-- A BQN value: a number (the 64 bits of a double), a character, an array (its
elements in order), a pointer object (its address and type), or anything else. -/
inductive V
  | num (x : BitVec 64)
  | chr (c : Nat)
  | arr (xs : List V)
  | ptr (a : BitVec 64) (t : Ty)
  | other

/-- The integer a double is equal to, if there is one. -/
def asInt (x : BitVec 64) : Option Int :=
  let neg := decide (x.toNat / 2 ^ 63 = 1)
  let e := x.toNat / 2 ^ 52 % 2048
  let f := x.toNat % 2 ^ 52
  let sg : Nat → Int := fun n => if neg then -(n : Int) else n
  if e = 2047 then none
  else if e = 0 then (if f = 0 then some 0 else none)
  else if 1075 ≤ e then some (sg ((2 ^ 52 + f) * 2 ^ (e - 1075)))
  else if (2 ^ 52 + f) % 2 ^ (1075 - e) = 0 then some (sg ((2 ^ 52 + f) / 2 ^ (1075 - e)))
  else none

/-- Two doubles are the same BQN number: the same bits, or the same integer
(this only adds that zero and negative zero are the same number). -/
def SameNum (x y : BitVec 64) : Prop := x = y ∨ ∃ i, asInt x = some i ∧ asInt y = some i

/-- Size in bytes of the reinterpreted value; `*` is a pointer. -/
def baseWidth : Option Sc → Nat
  | some s => s.width
  | none => 8

/-- Size in bytes of a value of a type. -/
def size : Ty → Nat
  | .void => 0
  | .sc s => s.width
  | .ptr _ => 8
  | .repr b _ => baseWidth b
  | .agg _ n _ => n

mutual
/-- A type is laid out properly: the elements of a reinterpreted value are not
wider than it, and the fields of a structure follow each other without overlap
and within its size. -/
def WF : Ty → Prop
  | .void => False
  | .sc _ => True
  | .ptr _ => True
  | .repr b r => r.bits ≤ 8 * baseWidth b
  | .agg _ n fs => WFs 0 n fs
def WFs : Nat → Nat → Flds → Prop
  | lo, n, .nil => lo ≤ n
  | lo, n, .cons off t rest => lo ≤ off ∧ WF t ∧ WFs (off + size t) n rest
end

/-- The integers an integer type accepts.  64-bit integers have to be below 2⋆53
in magnitude, as all of those are exact as BQN numbers. -/
def Sc.range : Sc → Option (Int × Int)
  | .u8 => some (0, 255)
  | .u16 => some (0, 65535)
  | .u32 => some (0, 4294967295)
  | .u64 => some (0, 9007199254740991)
  | .i8 => some (-128, 127)
  | .i16 => some (-32768, 32767)
  | .i32 => some (-2147483648, 2147483647)
  | .i64 => some (-9007199254740991, 9007199254740991)
  | .f32 => none
  | .f64 => none

/-- A double is an integer within bounds. -/
def InRange (lo hi : Int) (x : BitVec 64) : Prop := ∃ i, asInt x = some i ∧ lo ≤ i ∧ i ≤ hi

/-- A value suits a scalar type. -/
def FitsSc (s : Sc) (v : V) : Prop :=
  ∃ x, v = .num x ∧ ∀ lo hi, s.range = some (lo, hi) → InRange lo hi x

/-- A value suits as an element of a reinterpreted value. -/
def FitsRe : Re → V → Prop
  | .u1, v => ∃ x, v = .num x ∧ InRange 0 1 x
  | .i8, v => ∃ x, v = .num x ∧ InRange (-128) 127 x
  | .i16, v => ∃ x, v = .num x ∧ InRange (-32768) 32767 x
  | .i32, v => ∃ x, v = .num x ∧ InRange (-2147483648) 2147483647 x
  | .c8, v => ∃ c, v = .chr c ∧ c < 2 ^ 8
  | .c16, v => ∃ c, v = .chr c ∧ c < 2 ^ 16
  | .c32, v => ∃ c, v = .chr c ∧ c < 2 ^ 32
  | .f64, v => ∃ x, v = .num x

/-- Two values are the same number, or the same character. -/
def SameAtom : V → V → Prop
  | .num x, .num y => SameNum x y
  | .chr c, .chr d => c = d
  | _, _ => False

/-- Conversions between double and single precision. -/
structure F32 where
  narrow : BitVec 64 → BitVec 32
  widen : BitVec 32 → BitVec 64

mutual
/-- `Back F t v r`: reading a value of type `t` gave `r`, and this is what one
expects after `v` has been written.  Numbers and characters are unchanged, except
that a single-precision place rounds; a pointer keeps its address and gets the
type declared for it; arrays are compared item by item. -/
def Back (F : F32) : Ty → V → V → Prop
  | .void, _, _ => False
  | .sc .f32, v, r => ∃ x, v = .num x ∧ r = .num (F.widen (F.narrow x))
  | .sc _, v, r => SameAtom v r
  | .ptr e, v, r => ∃ a t, v = .ptr a t ∧ r = .ptr a e
  | .repr _ _, v, r => ∃ xs ys, v = .arr xs ∧ r = .arr ys ∧ xs.length = ys.length ∧
      ∀ (i : Nat) (h : i < xs.length) (h' : i < ys.length), SameAtom xs[i] ys[i]
  | .agg _ _ fs, v, r => ∃ xs ys, v = .arr xs ∧ r = .arr ys ∧ Backs F fs xs ys
def Backs (F : F32) : Flds → List V → List V → Prop
  | .nil, xs, ys => xs = [] ∧ ys = []
  | .cons _ t rest, x :: xs, y :: ys => Back F t x y ∧ Backs F rest xs ys
  | .cons _ _ _, _, _ => False
end

mutual
/-- A type without its reinterpretations: `u32:i8` is a `u32`, and `*:i8` an
untyped pointer. -/
def strip : Ty → Ty
  | .repr (some s) _ => .sc s
  | .repr none _ => .ptr .void
  | .ptr e => .ptr (strip e)
  | .agg k n fs => .agg k n (strips fs)
  | .sc s => .sc s
  | .void => .void
def strips : Flds → Flds
  | .nil => .nil
  | .cons off t rest => .cons off (strip t) (strips rest)
end

mutual
/-- Two types without reinterpretations are the same, except that an untyped
place goes with anything. -/
def Alike : Ty → Ty → Prop
  | .void, _ => True
  | _, .void => True
  | .sc s, .sc s' => s = s'
  | .ptr e, .ptr e' => Alike e e'
  | .agg k _ fs, .agg k' _ gs => k = k' ∧ Alikes fs gs
  | _, _ => False
def Alikes : Flds → Flds → Prop
  | .nil, .nil => True
  | .cons _ t r, .cons _ t' r' => Alike t t' ∧ Alikes r r'
  | _, _ => False
end

/-- A pointer to the first type may be used where one to the second is wanted. -/
def Compat (a b : Ty) : Prop := Alike (strip a) (strip b)

mutual
/-- A value suits a type. -/
def Fits : Ty → V → Prop
  | .void, _ => False
  | .sc s, v => FitsSc s v
  | .ptr e, v => ∃ a t, v = .ptr a t ∧ Compat t e
  | .repr b r, v =>
      (∃ xs, v = .arr xs ∧ xs.length * r.bits = 8 * baseWidth b ∧ ∀ x ∈ xs, FitsRe r x) ∨
      (b = none ∧ ∃ a t, v = .ptr a t)
  | .agg _ _ fs, v => ∃ xs, v = .arr xs ∧ Fitss fs xs
def Fitss : Flds → List V → Prop
  | .nil, xs => xs = []
  | .cons _ t rest, x :: xs => Fits t x ∧ Fitss rest xs
  | .cons _ _ _, [] => False
end

mutual
/-- Values which are written as data: no pointer is given for a `*:r` place (the
only place which takes a pointer and is read back as something else). -/
def Plain : Ty → V → Prop
  | .repr none _, v => ∃ xs, v = .arr xs
  | .agg _ _ fs, v => ∀ xs, v = .arr xs → Plains fs xs
  | _, _ => True
def Plains : Flds → List V → Prop
  | .cons _ t rest, x :: xs => Plain t x ∧ Plains rest xs
  | _, _ => True
end

mutual
/-- No scalar narrower than 8 bytes is reinterpreted anywhere in the type. -/
def NoShort : Ty → Prop
  | .repr b _ => baseWidth b = 8
  | .agg _ _ fs => NoShorts fs
  | _ => True
def NoShorts : Flds → Prop
  | .nil => True
  | .cons _ t rest => NoShort t ∧ NoShorts rest
end

end Verif.Ffi
