import Verif.Sort.Num
/-!
# Model of `⍋𝕩` and `⍒𝕩` on lists (`/repo/src/builtins/grade.h` 259-361, `grade_bool` in `/repo/src/builtins/slash.c` 347-403, `generic_grade` in
`/repo/src/builtins/sort.c` 37-47; all without Singeli)

The result is a list of integers as stored in the result's element type.
-/
namespace Verif.Sort
open Verif.Radix Verif.Bits

/-- The result's element type is `i8`, `i16`, `i32` or `f64` by the length: slash.c 397-401 for booleans, else grade.h 355-356 (which
convert from `i32`). Storing in it: -/
def store (n : Nat) (i : Int) : Int :=
  if n ≤ 128 then Int.bmod i (2^8) else if n ≤ 2^15 then Int.bmod i (2^16) else if n ≤ 2^31 then Int.bmod i (2^32) else i

/-- slash.c 353-358 `BG_LOOP` from `i`, for `m` elements; `u64` arithmetic, which does not wrap -/
def bgLoop (up : Bool) (x : Nat → Word) (n : Nat) : Nat → Nat → Nat → Nat → (Nat → Option Int) → Option (Nat → Option Int)
  | 0, _, _, _, rp => some rp
  | m+1, i, r0, r1, rp =>
    let b := if up then !bitF x i else bitF x i
    let p := if b then r0 else r1 - r0
    if p < n then bgLoop up x n m (i+1) (r0 + b.toNat) (r1 + 1) (upd rp p (some (store n i))) else none

/-- slash.c 347-403 `grade_bool` -/
def gradeBool (up : Bool) (x : Nat → Word) (n : Nat) : Option (List Int) :=
  let sum := Fold.bit_sum x n
  let l0 := if up then n - sum else sum
  (bgLoop up x n n 0 0 l0 fun _ => none).bind fun rp => read rp 0 n

/-- Elements with their indices: the pairs `k`, `v` (343-347), or the parallel arrays of the radix sort (177-178, 199-202). -/
def pairs (xs : List α) : List (α × Nat) := xs.zipIdx

/-- grade.h 350, sort.c 45: the indices, once sorted -/
def indices (l : List (α × Nat)) : List Nat := l.map Prod.snd

/-- 310-318: the smallest and largest element -/
def minOf (xs : List Int) : Int := xs.foldl (fun m c => if c < m then c else m) (2^31 - 1)
def maxOf (xs : List Int) : Int := xs.foldl (fun m c => if c > m then c else m) (-2^31)
/-- 311, 314: the sum, a `u32` -/
def sumOf (xs : List Int) : Nat := xs.foldl (fun s c => ((s + c) % 2^32).toNat) 0

/-- 324: writing index `i` at the place given by the element -/
def invLoop (up : Bool) (mn mx : Int) (n : Nat) : List (Int × Nat) → (Nat → Nat) → Option (Nat → Nat)
  | [], rp => some rp
  | (v, i) :: l, rp =>
    let p := if up then v - mn else mx - v
    if 0 ≤ p ∧ p < n then invLoop up mn mx n l (upd rp p.toNat i) else none

/-- 328-330: counting. `range` counters; outside of them is `none`. -/
def bucketCount (mn : Int) (range : Nat) : List Int → (Nat → Nat) → Option (Nat → Nat)
  | [], c => some c
  | x :: xs, c => if 0 ≤ x - mn ∧ x - mn < range then bucketCount mn range xs (upd c (x - mn).toNat ((c (x - mn).toNat + 1) % 2^32)) else none

/-- 331: `{ usz p=s; s+=c0[i]; c0[i]=p; }` for the entries in the order of `FOR` -/
def bucketStarts : List Nat → Nat → (Nat → Nat) → (Nat → Nat)
  | [], _, c => c
  | i :: is, s, c => bucketStarts is ((s + c i) % 2^32) (upd c i s)

/-- 328-333 -/
def bucketGrade (up : Bool) (mn : Int) (range : Nat) (xs : List Int) : Option (List Nat) :=
  (bucketCount mn range xs fun _ => 0).bind fun c =>
  let c := bucketStarts (if up then List.range range else (List.range range).reverse) 0 c
  (move (2^32) xs.length (fun p : Int × Nat => (p.1 - mn).toNat) Prod.snd c (fun _ => none) (pairs xs)).bind fun (_, o) =>
  read o 0 xs.length

/-- 308-352, `i32` and `c32` elements. Timsort's comparison of pairs is the difference as `i64`. -/
def grade32 (up : Bool) (junk : Nat → Nat) (xs : List Int) : Option (List Nat) :=
  let n := xs.length
  let mn := minOf xs
  let mx := maxOf xs
  let range := (mx - mn + 1).toNat
  if range/2 < n then
    let inv :=
      if range = n ∧ (sumOf xs : Int) = ((n * (mn + mx)).tdiv 2) % 2^32 then
        (invLoop up mn mx n (pairs xs) fun _ => n).map fun rp =>
          if (List.range n).all fun i => rp i != n then some ((List.range n).map rp) else none
      else some none
    inv.bind fun
      | some r => some r
      | none => bucketGrade up mn range xs
  else if n > 40 then (radix up (2^32) 4 (fun t (p : Int × Nat) => digit 4 t p.1) (fun _ => n) junk (pairs xs)).map indices
  else (timSort (fun a b => intOrder up a.1 b.1) (pairs xs)).map indices

/-- sort.c 37-47 `generic_grade` with `GRADE_NEG compare` -/
def genericGrade (up : Bool) (c : α → α → Int) (xs : List α) : Option (List Nat) :=
  (timSort (fun a b => if up then c a.1 b.1 else -c a.1 b.1) (pairs xs)).map indices

/-- `compare` on integers and on characters: the sign of the difference (its own model is `Verif.Compare`) -/
def cmpInt (a b : Int) : Int := if a < b then -1 else if b < a then 1 else 0

/-- 286-292: at most two elements; `p` is whether `compare(x0,x1) ⋚ 0` -/
def gradeSmall (up : Bool) (c : α → α → Int) : List α → Option (List Int)
  | [] => some []
  | [_] => some [0]
  | [a, b] => if (if up then decide (c a b ≤ 0) else decide (c a b ≥ 0)) then some [0, 1] else some [1, 0]
  | _ => none

/-- Outcomes of grade: a result, or the error "𝕩 too large" -/
inductive Res (α : Type) | ok (r : α) | tooLarge
deriving DecidableEq

/-- 296-361 for other than booleans with more than two elements: the length check, the grade, and storing the result -/
def gradeBig (n : Nat) (g : Option (List Nat)) : Option (Res (List Int)) :=
  if n > 2^31 - 1 then some .tooLarge else g.map fun r => .ok (r.map fun i : Nat => store n i)

/-- A list, by the element types grade distinguishes. Characters of 1 and 2 bytes are widened to 4 (353). -/
inductive GArr (α : Type)
  | bit (x : Nat → Word) (n : Nat)
  | int (t : IntTy) (xs : List Int)
  | chr (xs : List Int)
  | other (xs : List α)

/-- 281-361 `⍋𝕩`, `⍒𝕩` for a list. `c` is `compare`; `none` is undefined behaviour. -/
def gradeC1 (up : Bool) (c : α → α → Int) (junk : Nat → Nat) : GArr α → Option (Res (List Int))
  | .bit x n =>
    if n ≤ 2 then (gradeSmall up (fun a b : Bool => cmpInt a.toNat b.toNat) (listF x n)).map .ok
    else (gradeBool up x n).map .ok
  | .int t xs =>
    if xs.length ≤ 2 then (gradeSmall up cmpInt xs).map .ok
    else gradeBig xs.length <|
      if t = .i8 ∧ xs.length > 8 then (radix up (2^32) 1 (fun t (p : Int × Nat) => digit 1 t p.1) (fun _ => xs.length) junk (pairs xs)).map indices
      else if t = .i16 ∧ xs.length > 16 then (radix up (2^32) 2 (fun t (p : Int × Nat) => digit 2 t p.1) (fun _ => xs.length) junk (pairs xs)).map indices
      else if t = .i32 then grade32 up junk xs
      else genericGrade up cmpInt xs
  | .chr xs =>
    if xs.length ≤ 2 then (gradeSmall up cmpInt xs).map .ok else gradeBig xs.length (grade32 up junk xs)
  | .other xs =>
    if xs.length ≤ 2 then (gradeSmall up c xs).map .ok else gradeBig xs.length (genericGrade up c xs)

end Verif.Sort
