import Verif.Squeeze.Spec
/-!
# Squeezing: model

`src/builtins/squeeze.c` without Singeli, the copies between element types of `src/utils/mut.c`, and the
predicates on single values of `src/h.h` and `src/core/stuff.h`.

Simplifications: shapes, fills and slices are not modelled (a slice is the array of its elements, and an array
of generic elements is one list whether or not it is stored contiguously).  A conversion of a double to an
integer that C leaves undefined gives an arbitrary result, `bad`.  Reading an element that is not a number as a
number, or one that is not a character as a character, gives `none`.
-/
namespace Verif.Squeeze
open Verif.Bins (ofInt)

/-- The stored elements of an array: `src/h.h` element types `el_bit` … `el_B`. -/
inductive Data
  | bit (xs : List Bool)
  | i8 (xs : List (BitVec 8))
  | i16 (xs : List (BitVec 16))
  | i32 (xs : List (BitVec 32))
  | f64 (xs : List (BitVec 64))
  | c8 (xs : List (BitVec 8))
  | c16 (xs : List (BitVec 16))
  | c32 (xs : List (BitVec 32))
  | B (xs : List Val)
deriving DecidableEq

/-- `TI(x,elType)`. -/
def Data.ty : Data → El
  | .bit _ => .bit | .i8 _ => .i8 | .i16 _ => .i16 | .i32 _ => .i32 | .f64 _ => .f64
  | .c8 _ => .c8 | .c16 _ => .c16 | .c32 _ => .c32 | .B _ => .B

/-- What the elements mean: `IGetU(x,i)` for each `i` (`m_f64` of a stored number, `m_c32` of a stored
character; `core/tyarrTemplate.h`, `core/numarr.h`). -/
def Data.elems : Data → List Val
  | .bit xs => xs.map fun b => .num (ofInt b.toNat)
  | .i8 xs => xs.map fun i => .num (ofInt i.toInt)
  | .i16 xs => xs.map fun i => .num (ofInt i.toInt)
  | .i32 xs => xs.map fun i => .num (ofInt i.toInt)
  | .f64 xs => xs.map .num
  | .c8 xs => xs.map fun c => .chr (c.zeroExtend 32)
  | .c16 xs => xs.map fun c => .chr (c.zeroExtend 32)
  | .c32 xs => xs.map .chr
  | .B xs => xs

/-- `(i32)x` of a double: truncation towards zero, and an arbitrary value when the result is not in range
(undefined in C; `cvttsd2si` gives the least integer). -/
def toI32 (bad : BitVec 64 → BitVec 32) (f : BitVec 64) : BitVec 32 :=
  let e := f.toNat / 2^52 % 2048
  let m : Nat := (2^52 + f.toNat % 2^52) / 2^(52 - (e - 1023))
  if e < 1023 then 0
  else if e ≤ 1023 + 31 ∧ ((f.toNat < 2^63 ∧ m < 2^31) ∨ (2^63 ≤ f.toNat ∧ m ≤ 2^31)) then
    BitVec.ofInt 32 (if f.toNat < 2^63 then (m : Int) else -(m : Int))
  else bad f

/-- `a == b` of doubles. -/
def feq (a b : BitVec 64) : Bool := !Compare.nan a && !Compare.nan b && decide (Compare.key a = Compare.key b)

/-- `x==(f64)(i32)x`: `q_fi32`, `src/h.h` 493; also the test of `squeeze_f64`, `squeeze.c` 71-72. -/
def qI32 (bad : BitVec 64 → BitVec 32) (f : BitVec 64) : Bool := feq f (ofInt (toI32 bad f).toInt)

/-! ## Copies between element types, `src/utils/mut.c` 405-524

`MAKE_ICPY`, `MAKE_CCPY`, `cpyBitArr`, `cpyHArr` and the `basic_copy` functions that they use through
`COPY_TO_FROM`. -/

/-- Numbers of a generic array, `o2fG` (`mut.c` 461-462); not a number: no meaning. -/
def nums : List Val → Option (List (BitVec 64))
  | [] => some []
  | .num f :: vs => (nums vs).map (f :: ·)
  | _ :: _ => none

/-- Characters of a generic array, `o2cG` (`mut.c` 478-479). -/
def chrs : List Val → Option (List (BitVec 32))
  | [] => some []
  | .chr c :: vs => (chrs vs).map (c :: ·)
  | _ :: _ => none

/-- C's conversion of a double to a signed integer of `w` bits, `w ≤ 32`. -/
def toIw (w : Nat) (bad : BitVec 64 → BitVec 32) (f : BitVec 64) : BitVec w := (toI32 bad f).setWidth w

/-- Copy to a signed integer type of `w` bits: `basic_copy_##XE##_##RE`, `mut.c` 408-412 and 422; generic
elements 461-462. -/
def toInts (w : Nat) (bad : BitVec 64 → BitVec 32) : Data → Option (List (BitVec w))
  | .bit xs => some (xs.map fun b => BitVec.ofNat w b.toNat)
  | .i8 xs => some (xs.map (·.signExtend w))
  | .i16 xs => some (xs.map (·.signExtend w))
  | .i32 xs => some (xs.map (·.signExtend w))
  | .f64 xs => some (xs.map (toIw w bad))
  | d => (nums d.elems).map fun fs => fs.map (toIw w bad)

/-- Copy to doubles. -/
def toF64s : Data → Option (List (BitVec 64))
  | .bit xs => some (xs.map fun b => ofInt b.toNat)
  | .i8 xs => some (xs.map fun i => ofInt i.toInt)
  | .i16 xs => some (xs.map fun i => ofInt i.toInt)
  | .i32 xs => some (xs.map fun i => ofInt i.toInt)
  | .f64 xs => some xs
  | d => nums d.elems

/-- Copy to bits: each element compared with zero (`basic_copy_##E##_bit`, `mut.c` 423; generic elements
515-516, where the double is converted to `bool`). -/
def toBits : Data → Option (List Bool)
  | .bit xs => some xs
  | .i8 xs => some (xs.map (· != 0))
  | .i16 xs => some (xs.map (· != 0))
  | .i32 xs => some (xs.map (· != 0))
  | .f64 xs => some (xs.map fun f => !feq f 0)
  | d => (nums d.elems).map fun fs => fs.map fun f => !feq f 0

/-- Copy to characters of `w` bits: `basic_copy_##XE##_##RE`, `mut.c` 414-418; generic elements 478-479. -/
def toChrs (w : Nat) : Data → Option (List (BitVec w))
  | .c8 xs => some (xs.map (·.setWidth w))
  | .c16 xs => some (xs.map (·.setWidth w))
  | .c32 xs => some (xs.map (·.setWidth w))
  | d => (chrs d.elems).map fun cs => cs.map (·.setWidth w)

/-- The copy of an array with a given element type: `cpyFns[t]`. -/
def conv (bad : BitVec 64 → BitVec 32) (t : El) (d : Data) : Option Data :=
  match t with
  | .bit => (toBits d).map .bit
  | .i8 => (toInts 8 bad d).map .i8
  | .i16 => (toInts 16 bad d).map .i16
  | .i32 => (toInts 32 bad d).map .i32
  | .f64 => (toF64s d).map .f64
  | .c8 => (toChrs 8 d).map .c8
  | .c16 => (toChrs 16 d).map .c16
  | .c32 => (toChrs 32 d).map .c32
  | .B => some (.B d.elems)

/-! ## `src/builtins/squeeze.c` -/

/-- An array with its flags `fl_squoze`, `fl_asc`, `fl_dsc` (`src/h.h` 621-625). -/
structure Arr where
  data : Data
  squoze : Bool
  asc : Bool
  dsc : Bool
deriving DecidableEq

/-- `((u32)c & ~1) ^ (u32)(c>>31)`, `squeeze.c` 65-66, 73, 106. -/
def mask (c : BitVec 32) : BitVec 32 := (c &&& ~~~1#32) ^^^ c.sshiftRight 31

/-- `or|= …` over a list. -/
def orAll (ms : List (BitVec 32)) : BitVec 32 := ms.foldl (· ||| ·) 0#32

/-- The chain of labels `mostI32`, `mostI16`, `mostI8`, `mostBit` of `SQFN_NUM_RET`, `squeeze.c` 20-24. -/
def mostI8 (o : BitVec 32) : El := if o > 0#32 then .i8 else .bit
def mostI16 (o : BitVec 32) : El := if o > 127#32 then .i16 else mostI8 o
def mostI32 (o : BitVec 32) : El := if o > 32767#32 then .i32 else mostI16 o

/-- What a squeezing function decides: keep the array and set `fl_squoze`, keep it as it is, or copy. -/
inductive Verdict
  | squeezed | keep | copy (t : El)
deriving DecidableEq

/-- `squeeze_i8`, `squeeze.c` 64. -/
def squeezeI8 (xs : List (BitVec 8)) : Verdict :=
  if orAll (xs.map (·.setWidth 32)) > 1#32 then .squeezed else .copy .bit

/-- `squeeze_i16`, `squeeze.c` 65. -/
def squeezeI16 (xs : List (BitVec 16)) : Verdict :=
  let o := orAll (xs.map fun x => mask (x.signExtend 32))
  if o > 127#32 then .squeezed else .copy (mostI8 o)

/-- `squeeze_i32`, `squeeze.c` 66. -/
def squeezeI32 (xs : List (BitVec 32)) : Verdict :=
  let o := orAll (xs.map mask)
  if o > 32767#32 then .squeezed else .copy (mostI16 o)

/-- The loop of `squeeze_f64`, `squeeze.c` 67-76. -/
def squeezeF64 (bad : BitVec 64 → BitVec 32) (o : BitVec 32) : List (BitVec 64) → Verdict
  | [] => .copy (mostI32 o)
  | f :: fs => if qI32 bad f then squeezeF64 bad (o ||| mask (toI32 bad f)) fs else .squeezed

/-- `squeeze_c16`, `squeeze.c` 78-82. -/
def squeezeC16 (xs : List (BitVec 16)) : Verdict :=
  if xs.any fun x => x != (x.setWidth 8).setWidth 16 then .squeezed else .copy .c8

/-- The loop of `squeeze_c32`, `squeeze.c` 83-92. -/
def squeezeC32 (c8 : Bool) : List (BitVec 32) → Verdict
  | [] => .copy (if c8 then .c8 else .c16)
  | x :: xs =>
    if x != (x.setWidth 16).setWidth 32 then .squeezed
    else squeezeC32 (if x != (x.setWidth 8).setWidth 32 then false else c8) xs

/-- `isF64`, `isNum`. -/
def Val.isNum : Val → Bool
  | .num _ => true
  | _ => false
/-- `isC32`. -/
def Val.isChr : Val → Bool
  | .chr _ => true
  | _ => false

/-- `q_i32` of a value: a word that is not a number is a NaN, which equals nothing. -/
def Val.qI32 (bad : BitVec 64 → BitVec 32) : Val → Bool
  | .num f => Squeeze.qI32 bad f
  | _ => false
/-- `o2iG`. -/
def Val.toI32 (bad : BitVec 64 → BitVec 32) : Val → BitVec 32
  | .num f => Squeeze.toI32 bad f
  | _ => 0

/-- `SQUEEZE_NUM_B_LOOP` and `SQFN_NUM_B`, `squeeze.c` 97-114. -/
def squeezeNumB (bad : BitVec 64 → BitVec 32) (notChar : Bool) (o : BitVec 32) : List Val → Verdict
  | [] => .copy (mostI32 o)
  | v :: vs =>
    if v.qI32 bad then squeezeNumB bad notChar (o ||| mask (v.toI32 bad)) vs
    else if (v :: vs).all (·.isNum) then .copy .f64
    else if notChar then .squeezed else .keep

/-- `squeeze_B_chrSlow`, `squeeze_BV_chrImpl`, `SQFN_CHR_B`, `squeeze.c` 137-174. -/
def squeezeChrB (notNum : Bool) (o : BitVec 32) : List Val → Verdict
  | [] => .copy (if o > 65535#32 then .c32 else if o > 255#32 then .c16 else .c8)
  | .chr c :: vs => squeezeChrB notNum (o ||| c) vs
  | _ :: _ => if notNum then .squeezed else .keep

/-- `squeeze_B`, `squeeze_BGeneric`, `squeeze.c` 191-208. -/
def squeezeB (bad : BitVec 64 → BitVec 32) (xs : List Val) : Verdict :=
  match xs.head? with
  | some (.num _) => squeezeNumB bad true 0#32 xs
  | some (.chr _) => squeezeChrB true 0#32 xs
  | _ => .squeezed

/-- `squeeze_numFns`, `squeeze.c` 211. -/
def numFns (bad : BitVec 64 → BitVec 32) : Data → Verdict
  | .bit _ => .squeezed
  | .i8 xs => squeezeI8 xs
  | .i16 xs => squeezeI16 xs
  | .i32 xs => squeezeI32 xs
  | .f64 xs => squeezeF64 bad 0#32 xs
  | .c8 _ => .squeezed
  | .c16 _ => .keep
  | .c32 _ => .keep
  | .B xs => squeezeNumB bad false 0#32 xs

/-- `squeeze_chrFns`, `squeeze.c` 212. -/
def chrFns : Data → Verdict
  | .bit _ => .squeezed
  | .i8 _ => .keep
  | .i16 _ => .keep
  | .i32 _ => .keep
  | .f64 _ => .keep
  | .c8 _ => .squeezed
  | .c16 xs => squeezeC16 xs
  | .c32 xs => squeezeC32 true xs
  | .B xs => squeezeChrB false 0#32 xs

/-- `squeeze_anyFns`, `squeeze.c` 213. -/
def anyFns (bad : BitVec 64 → BitVec 32) : Data → Verdict
  | .bit _ => .squeezed
  | .i8 xs => squeezeI8 xs
  | .i16 xs => squeezeI16 xs
  | .i32 xs => squeezeI32 xs
  | .f64 xs => squeezeF64 bad 0#32 xs
  | .c8 _ => .squeezed
  | .c16 xs => squeezeC16 xs
  | .c32 xs => squeezeC32 true xs
  | .B xs => squeezeB bad xs

/-- Labels `squeezed`, `r_…` and `tag` of `SQFN_NUM_RET` and `SQFN_CHR_RET`, `squeeze.c` 25-39: a copy is a new
array without flags, to which `fl_squoze` is added. -/
def apply (bad : BitVec 64 → BitVec 32) (x : Arr) : Verdict → Option Arr
  | .keep => some x
  | .squeezed => some { x with squoze := true }
  | .copy t => (conv bad t x.data).map fun d => ⟨d, true, false, false⟩

/-- `i==(i8)i`. -/
def fits8 (i : BitVec 32) : Bool := i == (i.setWidth 8).signExtend 32
/-- `i==(i16)i`. -/
def fits16 (i : BitVec 32) : Bool := i == (i.setWidth 16).signExtend 32

/-- `selfElType_i32`, `core/stuff.h` 241-243. -/
def selfI32 (i : BitVec 32) : El :=
  if fits8 i then (if i == i &&& 1#32 then .bit else .i8) else if fits16 i then .i16 else .i32
/-- `selfElType_c32`, `core/stuff.h` 244-246. -/
def selfC32 (c : BitVec 32) : El := if c ≤ 255#32 then .c8 else if c ≤ 65535#32 then .c16 else .c32
/-- `selfElType`, `core/stuff.h` 247-254. -/
def selfTy (bad : BitVec 64 → BitVec 32) : Val → El
  | .num f => if qI32 bad f then selfI32 (toI32 bad f) else .f64
  | .chr c => selfC32 c
  | .other _ => .B

/-- First and last element as `i32`: `int_squeeze_sorted`, `squeeze.c` 226-231. -/
def ends : Data → Option (BitVec 32 × BitVec 32)
  | .i8 xs => match xs.head?, xs.getLast? with | some a, some b => some (a.signExtend 32, b.signExtend 32) | _, _ => none
  | .i16 xs => match xs.head?, xs.getLast? with | some a, some b => some (a.signExtend 32, b.signExtend 32) | _, _ => none
  | .i32 xs => match xs.head?, xs.getLast? with | some a, some b => some (a, b) | _, _ => none
  | _ => none

/-- `IA(x)==0`. -/
def Data.empty (d : Data) : Bool := d.elems.isEmpty

/-- `elInt`. -/
def El.int (t : El) : Bool := t.rank ≤ 3

/-- `int_squeeze_sorted`, `squeeze.c` 215-245. -/
def sorted (bad : BitVec 64 → BitVec 32) (x : Arr) : Option Arr :=
  if x.data.empty then some { x with squoze := true }
  else if x.data.ty = .bit then some { x with squoze := true }
  else match ends x.data with
    | none => none
    | some (a, b) =>
      let ae := selfI32 a
      let be := selfI32 b
      let re := if ae.rank > be.rank then ae else be
      if x.data.ty = re then some { x with squoze := true }
      else if re = .i32 then none
      else (conv bad re x.data).map fun d => ⟨d, true, x.asc, x.dsc⟩

/-- `squeeze_any`, `squeeze.c` 261-266, with `SQ_FAST_EXT` 249-254. -/
def squeezeAny (bad : BitVec 64 → BitVec 32) (x : Arr) : Option Arr :=
  if x.squoze then some x
  else if (x.asc || x.dsc) && x.data.ty.int then sorted bad x
  else if x.data.empty then some { x with squoze := true }
  else apply bad x (anyFns bad x.data)

/-- An empty array of numbers: `emptyNumsWithShape`; of characters: `emptyChrsWithShape`. -/
def emptyNums : Arr := ⟨.bit [], false, false, false⟩
def emptyChrs : Arr := ⟨.c8 [], false, false, false⟩

/-- `squeeze_numNew`, `squeeze.c` 268-272. -/
def squeezeNumNew (bad : BitVec 64 → BitVec 32) (x : Arr) : Option Arr :=
  if x.data.empty then some (if x.data.ty = .bit then x else emptyNums)
  else apply bad x (numFns bad x.data)

/-- `squeeze_chrNew`, `squeeze.c` 273-277. -/
def squeezeChrNew (bad : BitVec 64 → BitVec 32) (x : Arr) : Option Arr :=
  if x.data.empty then some (if x.data.ty = .c8 then x else emptyChrs)
  else apply bad x (chrFns x.data)

/-- `squeeze_numTryImpl`, `squeeze.c` 279-285 (the element type is returned as well). -/
def squeezeNumTry (bad : BitVec 64 → BitVec 32) (x : Arr) : Option Arr :=
  if x.data.empty then some (if x.data.ty = .bit then x else emptyNums)
  else if x.squoze then some x
  else if (x.asc || x.dsc) && x.data.ty.int then sorted bad x
  else apply bad x (numFns bad x.data)

/-- `squeeze_chrTryImpl`, `squeeze.c` 286-292. -/
def squeezeChrTry (bad : BitVec 64 → BitVec 32) (x : Arr) : Option Arr :=
  if x.squoze then some x
  else if x.data.empty then some (if x.data.ty = .c8 then x else emptyChrs)
  else apply bad x (chrFns x.data)

/-! ## What the flags promise (`src/h.h` 621-625; specification) -/

/-- The elements of an array of integers. -/
def Data.ints : Data → List Int
  | .bit xs => xs.map fun b => (b.toNat : Int)
  | .i8 xs => xs.map (·.toInt)
  | .i16 xs => xs.map (·.toInt)
  | .i32 xs => xs.map (·.toInt)
  | _ => []

/-- The flags of an array tell the truth: `fl_squoze` means that an array with elements has the least type,
`fl_asc` and `fl_dsc` that an array of integers is in that order. -/
structure Flags (x : Arr) : Prop where
  squoze : x.squoze = true → x.data.elems = [] ∨ Least x.data.ty x.data.elems
  asc : x.asc = true → x.data.ints.Pairwise (· ≤ ·)
  dsc : x.dsc = true → x.data.ints.Pairwise (· ≥ ·)

end Verif.Squeeze
