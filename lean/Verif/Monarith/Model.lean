import Verif.Pervade.EachSpec
import Verif.Squeeze.Main
import Verif.Monarith.Spec
/-!
# Model of arithmetic with one argument

`/repo/src/builtins/arithm.c` 7-121 with Singeli disabled, and what `-𝕩` and `¬𝕩` use of `/repo/src/builtins/arithd.c`: `sub_SA`, 248-253 and 342-349, for a `𝕨` that is 0 or 1.
Values are stored as in `Pervade/EachSpec.lean`. Fills, reference counts and squeezing of results aren't modelled; squeezing keeps the elements (C11).
-/
namespace Verif.Monarith
open Verif.Pervade (V)
open Verif.Squeeze (Data Val El Arr feq squeezeNumTry toF64s)
open Verif.Bins (ofInt)

/-- A result, an error, or undefined behaviour. -/
inductive Out (α : Type)
  | ok (a : α)
  | err
  | ub

/-- `v>0` of a double. -/
def pos (v : BitVec 64) : Bool := !Compare.nan v && decide (Compare.key v > 0)

/-- `FEXPR` of 111-116, and `F` of 140-141. `fabs` clears the sign. -/
def fexpr (F : Flt) : Fn → BitVec 64 → BitVec 64
  | .plus, v => v
  | .minus, v => v ^^^ 0x8000000000000000#64
  | .abs, v => v &&& 0x7FFFFFFFFFFFFFFF#64
  | .floor, v => F.floor v
  | .ceil, v => F.ceil v
  | .sign, v => if feq v 0 then 0 else if pos v then ofInt 1 else ofInt (-1)
  | .not, v => F.sub (ofInt 1) v
  | .recip, v => F.recip v
  | .sqrt, v => F.sqrt v

/-- `DOI8`, `DOI16` and `DOI32` with `wv-xv`, arithd.c 128-130: results of `n` bits, computed with `2n`; `none` is `goto BASE`. -/
def subLoop (n : Nat) (c : Int) : List (BitVec n) → Option (List (BitVec n))
  | [] => some []
  | x :: xs =>
    let rv := BitVec.ofInt (2 * n) c - x.signExtend (2 * n)
    if rv ≠ (rv.setWidth n).signExtend (2 * n) then none
    else (subLoop n c xs).map (rv.setWidth n :: ·)

/-- `STILE_EXPR` in `LOOP_BODY`, 48-58 and 76; `none` is `goto bad`. -/
def absLoop (n : Nat) : List (BitVec n) → Option (List (BitVec n))
  | [] => some []
  | c :: cs => if c = BitVec.intMin n then none else (absLoop n cs).map ((if c.toInt ≥ 0 then c else -c) :: ·)

/-- `SIGN_EXPR`, 60. -/
def signI (n : Nat) (c : BitVec n) : BitVec 8 := if c.toInt > 0 then 1 else if c = 0 then 0 else -1

/-- `arith_recm` and `arith_recd` on an array of numbers: `f` on each element, as a double. -/
def recm (f : BitVec 64 → BitVec 64) (sh : List Nat) (d : Data) : Out V :=
  match toF64s d with
  | some fs => .ok (.boxed sh (fs.map fun v => .num (f v)))
  | none => .err

/-- A loop of integers, and what is done if it jumps. -/
def tryInts {n : Nat} (sh : List Nat) (mk : List (BitVec n) → Data) (l : Option (List (BitVec n))) (base : Out V) : Out V :=
  match l with
  | some r => .ok (.typed sh (mk r))
  | none => base

/-- `sub_SA` for a `𝕨` that is `c`, an integer that fits a byte. The case of bits isn't reached from here. -/
def subSA (F : Flt) (c : Int) (sh : List Nat) (d : Data) : Out V :=
  let base := recm (F.sub (ofInt c)) sh d
  match d with
  | .i8 xs => tryInts sh .i8 (subLoop 8 c xs) base
  | .i16 xs => tryInts sh .i16 (subLoop 16 c xs) base
  | .i32 xs => tryInts sh .i32 (subLoop 32 c xs) base
  | .f64 xs => .ok (.typed sh (.f64 (xs.map (F.sub (ofInt c)))))
  | _ => .ub

/-- `GC1i` and `GC1f` on an array of numbers: `MAIN`, or `RMIN` for a type up to `TMIN`. `arr` has the flags of an array. -/
def typed (F : Flt) (bad : BitVec 64 → BitVec 32) (arr : Data → Arr) (op : Fn) (sh : List Nat) (d : Data) : Out V :=
  match op with
  | .plus => .ok (.typed sh d)
  | .minus => match d with
    | .bit bs => .ok (.typed sh (.i8 (bs.map fun b => if b then -1 else 0)))
    | _ => subSA F 0 sh d
  | .abs => match d with
    | .bit _ => .ok (.typed sh d)
    | .i8 xs => tryInts sh .i8 (absLoop 8 xs) (recm (fexpr F .abs) sh d)
    | .i16 xs => tryInts sh .i16 (absLoop 16 xs) (recm (fexpr F .abs) sh d)
    | .i32 xs => tryInts sh .i32 (absLoop 32 xs) (recm (fexpr F .abs) sh d)
    | .f64 xs => .ok (.typed sh (.f64 (xs.map fun c => if feq c 0 || pos c then c else c ^^^ 0x8000000000000000#64)))
    | _ => .ub
  | .floor => match d with
    | .f64 xs => .ok (.typed sh (.f64 (xs.map F.floor)))
    | _ => .ok (.typed sh d)
  | .ceil => match d with
    | .f64 xs => .ok (.typed sh (.f64 (xs.map F.ceil)))
    | _ => .ok (.typed sh d)
  | .sign => match d with
    | .bit _ => .ok (.typed sh d)
    | .i8 xs => .ok (.typed sh (.i8 (xs.map (signI 8))))
    | .i16 xs => .ok (.typed sh (.i8 (xs.map (signI 16))))
    | .i32 xs => .ok (.typed sh (.i8 (xs.map (signI 32))))
    | .f64 xs => .ok (.typed sh (.i8 (xs.map fun c => if pos c then 1 else if feq c 0 then 0 else -1)))
    | _ => .ub
  | .not => match d with
    | .bit bs => .ok (.typed sh (.bit (bs.map (!·))))
    | _ => match squeezeNumTry bad (arr d) with
      | none => .ub
      | some r => match r.data with
        | .bit bs => .ok (.typed sh (.bit (bs.map (!·))))
        | d => subSA F 1 sh d
  | .recip => match toF64s d with | some fs => .ok (.typed sh (.f64 (fs.map F.recip))) | none => .ub
  | .sqrt => match toF64s d with | some fs => .ok (.typed sh (.f64 (fs.map F.sqrt))) | none => .ub

/-- `elNum`. -/
def numeric : El → Bool
  | .bit | .i8 | .i16 | .i32 | .f64 => true
  | _ => false

mutual
/-- The functions, 24-46, 118-141; `arith_recm`, 7-11, with `eachm_fn`, `/repo/src/utils/each.c` 68-124, which gives back an array without elements. `+𝕩` gives back `𝕩`, 24-30. -/
def mon (F : Flt) (bad : BitVec 64 → BitVec 32) (arr : Data → Arr) (op : Fn) : V → Out V
  | .num v => .ok (.num (fexpr F op v))
  | .chr _ => .err
  | .fn _ => .err
  | .typed sh d =>
    if numeric d.ty then typed F bad arr op sh d
    else if d.elems.isEmpty then .ok (.typed sh d)
    else .err
  | .boxed sh xs => match mons F bad arr op xs with
    | .ok r => if xs.isEmpty then .ok (.boxed sh xs) else if op = .plus then .ok (.boxed sh xs) else .ok (.boxed sh r)
    | .err => .err
    | .ub => .ub
def mons (F : Flt) (bad : BitVec 64 → BitVec 32) (arr : Data → Arr) (op : Fn) : List V → Out (List V)
  | [] => .ok []
  | x :: xs => match mon F bad arr op x with
    | .ok r => match mons F bad arr op xs with
      | .ok rs => .ok (r :: rs)
      | o => o
    | .err => .err
    | .ub => .ub
end

end Verif.Monarith
