import Verif.Sort.Tim
import Verif.Radix.Model
import Verif.Fold.Model
/-!
# Model of `∧𝕩` and `∨𝕩` on lists (`/repo/src/builtins/grade.h` 69-257, without Singeli)

`up` chooses between `∧` and `∨` (the macro `GRADE_UD`). Integers are `Int`; the argument's elements are in the range of its
element type. Array reads and writes outside of a buffer are `none`.
-/
namespace Verif.Sort
open Verif.Radix Verif.Bits

/-- 69 `LT` -/
def lt (up : Bool) (a b : Int) : Bool := if up then decide (a < b) else decide (b < a)

/-- 76-78, the inner loop and the final write; `j` counts down -/
def insLoop (up : Bool) (xi : Int) : Nat → List Int → Option (List Int)
  | 0, rp => put rp 0 xi
  | j+1, rp => rp[j]?.bind fun rj => if lt up xi rj then (put rp (j+1) rj).bind (insLoop up xi j) else put rp (j+1) xi

/-- 75-79, the outer loop from index `i` -/
def insOuter (up : Bool) : Nat → List Int → List Int → Option (List Int)
  | _, [], rp => some rp
  | i, x :: xs, rp => (insLoop up x i rp).bind (insOuter up (i+1) xs)

/-- 73-80 `INSERTION_SORT`; `rp` is the result buffer with its initial contents -/
def insertionSort (up : Bool) (rp xs : List Int) : Option (List Int) :=
  xs[0]?.bind fun x0 => (put rp 0 x0).bind (insOuter up 0 xs)

/-! ## counting sort -/

/-- 135-136: the counters of `COUNTING_SORT`; `c0o[x]` is `c0[x+C/2]` -/
def tally (C : Nat) (xs : List Int) : Nat → Nat :=
  xs.foldl (fun c (x : Int) => upd c (x + (C/2 : Nat)).toNat ((c (x + (C/2 : Nat)).toNat + 1) % 2^32)) fun _ => 0

/-- `c0o[j]`; `none` outside of the table -/
def look (C : Nat) (c : Nat → Nat) (j : Int) : Option Nat :=
  if -(C/2 : Nat) ≤ j ∧ j < (C/2 : Nat) then some (c (j + (C/2 : Nat)).toNat) else none

/-- 138 `T j=GRADE_UD(-C/2,C/2-1)`. `C` is a `usz`, so `-C/2` is `(2^32-C)/2`, which the conversion to `T` makes `-(C/2)`. -/
def start (up : Bool) (C : Nat) : Int := if up then Int.bmod (((2^32 - C)/2 : Nat)) C else (C/2 : Nat) - 1

/-- `j++` or `j--` -/
def step (up : Bool) (j : Int) : Int := if up then j + 1 else j - 1

/-- 139: the first non-empty counter -/
def skip (up : Bool) (C : Nat) (c : Nat → Nat) : Nat → Int → Option (Int × Nat)
  | 0, _ => none
  | f+1, j => (look C c j).bind fun ij => if ij = 0 then skip up C c f (step up j) else some (j, ij)

/-- 127: `while (ij<n) { rp[ij]++; ij+=c0o[++j]; }`; entries of `rp` are of the type `T` with `C` values -/
def sparse (up : Bool) (C n : Nat) (c : Nat → Nat) : Nat → Int → Nat → (Nat → Int) → Option (Nat → Int)
  | 0, _, _, _ => none
  | f+1, j, ij, rp =>
    if ij < n then
      let rp := upd rp ij (Int.bmod (step up (rp ij)) C)
      let j := step up j
      (look C c j).bind fun d => sparse up C n c f j ((ij + d) % 2^32) rp
    else some rp

/-- 128: `js=rp[i]+=js` from `i` on -/
def running (C : Nat) (rp : Nat → Int) : Nat → Nat → Int → List Int
  | 0, _, _ => []
  | m+1, i, js =>
    let js := Int.bmod (rp i + js) C
    js :: running C rp m (i+1) js

/-- 132-146 `COUNTING_SORT` with 124-128 `WRITE_SPARSE`; `size` is `sizeof(T)` -/
def countingSort (up : Bool) (size : Nat) (xs : List Int) : Option (List Int) :=
  let n := xs.length
  let C := 2^(8*size)
  let c := tally C xs
  if n/(16*size) ≤ C then
    (skip up C c C (start up C)).bind fun (j, ij) =>
    (sparse up C n c (C+1) j ij fun _ => 0).map fun rp => running C rp n 0 j
  else
    some ((if up then List.range C else (List.range C).reverse).flatMap fun j => List.replicate (c j) (Int.bmod (j - (C/2 : Nat)) C))

/-! ## radix sort -/

/-- The initial counters: 156-157, 167-168, 185-186. The entry after the last table (`ROFF`) is not initialised. -/
def rinit (up : Bool) (M n T : Nat) (junk : Nat → Nat) : Nat → Nat := fun j =>
  if j < 256*T then
    if j % 256 = 0 then (if up then (if j = 0 then 0 else (M - n % M) % M) else n % M) else 0
  else junk j % M

/-- 158, 169, 187-189: counting every table. The program counts all tables in one loop; here it is one table after another. -/
def rcount (up : Bool) (M : Nat) (dig : Nat → α → Nat) (xs : List α) (T : Nat) (c : Nat → Nat) : Nat → Nat :=
  (List.range T).foldl (fun c t => if up then countUp M (256*t) (dig t) c xs else countDown M (256*t) (dig t) c xs) c

/-- radix.h 10-12 `RDX_SUM`: clearing the first entry of all but the first table when ascending, and the sums -/
def rsum (up : Bool) (M T : Nat) (c : Nat → Nat) : Nat → Nat :=
  (List.range T).foldl (fun c t => sums M 256 (256*t) 0 (if up ∧ t ≠ 0 then upd c (256*t) 0 else c)) c

/-- 160-161, 173-174, 193-196: the passes. `cap t` is the number of entries of the buffer pass `t` writes. -/
def passes (M : Nat) (dig : Nat → α → Nat) (cap : Nat → Nat) : Nat → Nat → (Nat → Nat) → List α → Option (List α)
  | 0, _, _, l => some l
  | k+1, t, c, l =>
    (move M (cap t) (fun x => 256*t + dig t x) id c (fun _ => none) l).bind fun (c, o) =>
    (read o 0 l.length).bind fun l => passes M dig cap k (t+1) c l

/-- 154-204 `RADIX_SORT_i8`, `_i16`, `_i32`: `T` tables with counters modulo `M` -/
def radix (up : Bool) (M T : Nat) (dig : Nat → α → Nat) (cap : Nat → Nat) (junk : Nat → Nat) (xs : List α) : Option (List α) :=
  passes M dig cap T 0 (rsum up M T (rcount up M dig xs T (rinit up M xs.length T junk))) xs

/-- The index into table `t` of `T`: `(u8)(v>>8*t)`, and for the last table `(i8)(v>>8*t)` from the middle of the table -/
def digit (T t : Nat) (x : Int) : Nat :=
  if t + 1 = T then ((x / 256^t + 128) % 256).toNat else (x / 256^t % 256).toNat

/-- 149 `ROFF` -/
def roff (up : Bool) : Nat := if up then 1 else 0

/-- The entries of `r0` (165, 183): what is left of the allocation after the counters, of `cs` bytes each. In `SORT` the factor
of `n` is an `int`, so the product is a `usz`; the rest is a `size_t`. -/
def r0cap16 (up : Bool) (cs n : Nat) : Nat := (roff up * cs + n*2 % 2^32 + 4)/2
def r0cap32 (up : Bool) (cs n : Nat) : Nat := (roff up * cs + n*4 % 2^32)/4

/-- the buffers of 173-174 and 193-196 -/
def cap16 (up : Bool) (cs n : Nat) : Nat → Nat := fun t => if t = 0 then r0cap16 up cs n else n
def cap32 (up : Bool) (cs n : Nat) : Nat → Nat := fun t => if t % 2 = 0 then r0cap32 up cs n else n

/-! ## booleans -/

/-- 216-225: the words of the result -/
def sortBits (up : Bool) (x : Nat → Word) (n : Nat) : List Word :=
  let sum := Fold.bit_sum x n
  let n0 := if up then n - sum else sum
  let v0 : Word := if up then 0#64 else ~~~0#64
  let e := (n+63)/64
  let i := n0/64
  List.replicate i v0 ++ (if i < e then (v0 ^^^ (~~~0#64 <<< (n0 % 64))) :: List.replicate (e - i - 1) (~~~v0) else [])

/-! ## the dispatch -/

inductive IntTy | i8 | i16 | i32
deriving DecidableEq

/-- 1, 2 or 4 bytes -/
def IntTy.size : IntTy → Nat | .i8 => 1 | .i16 => 2 | .i32 => 4

/-- The integers of an element type. -/
def IntTy.has (t : IntTy) (x : Int) : Prop := -(2^(8*t.size-1) : Nat) ≤ x ∧ x < (2^(8*t.size-1) : Nat)

instance : Decidable (IntTy.has t x) := inferInstanceAs (Decidable (_ ∧ _))

/-- 226-251: integer lists of more than one element. `rp` is the result buffer, `junk` the memory after the counters. -/
def sortInt (up : Bool) (t : IntTy) (rp : List Int) (junk : Nat → Nat) (xs : List Int) : Option (List Int) :=
  let n := xs.length
  match t with
  | .i8 =>
    if n < 16 then insertionSort up rp xs
    else if n < 256 then radix up (2^8) 1 (digit 1) (fun _ => n) junk xs
    else countingSort up 1 xs
  | .i16 =>
    if n < 20 then insertionSort up rp xs
    else if n < 256 then radix up (2^8) 2 (digit 2) (cap16 up 1 n) junk xs
    else if n < 2^15 then radix up (2^32) 2 (digit 2) (cap16 up 4 n) junk xs
    else countingSort up 2 xs
  | .i32 =>
    if n < 32 then insertionSort up rp xs
    else if n < 256 then radix up (2^8) 4 (digit 4) (cap32 up 1 n) junk xs
    else radix up (2^32) 4 (digit 4) (cap32 up 4 n) junk xs

/-- A list, by the element types the code distinguishes: booleans as packed words, integers, and anything else. -/
inductive Arr (α : Type)
  | bit (x : Nat → Word) (n : Nat)
  | int (t : IntTy) (xs : List Int)
  | other (xs : List α)

/-- 207-257 `SORT_C1` on a list (cells of arrays of higher rank are not modelled). `flag` is whether the list is marked as
already in this order (`FL_HAS`, 211). `c` is `compare`. -/
def sortC1 (up : Bool) (c : α → α → Int) (flag : Bool) (rp : List Int) (junk : Nat → Nat) : Arr α → Option (Arr α)
  | .bit x n => if n ≤ 1 ∨ flag then some (.bit x n) else some (.bit (fun i => (sortBits up x n).getD i 0#64) n)
  | .int t xs => if xs.length ≤ 1 ∨ flag then some (.int t xs) else (sortInt up t rp junk xs).map (.int t)
  | .other xs =>
    if xs.length ≤ 1 ∨ flag then some (.other xs)
    else (timSort (fun a b => if up then c a b else -c a b) xs).map .other

end Verif.Sort
