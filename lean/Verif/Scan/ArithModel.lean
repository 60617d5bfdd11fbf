import Verif.Scan.Model
import Verif.Fold.Model
/-!
# Model of the arithmetic scans of `/repo/src/builtins/scan.c`: +` and -` of booleans, +` ⌊` ⌈` of integers
-/
namespace Verif.Scan
open Verif.Bits

/-- Element types of numeric results (h.h `el_i8`, `el_i16`, `el_i32`, `el_f64`). -/
inductive NumEl where
  | i8 | i16 | i32 | f64
deriving DecidableEq, Repr

/-- Storing an integer in a C variable of the type: wraps for the integer types. Integers of magnitude at most 2^53 are
exact in `f64`; nothing larger is stored by the functions using this. -/
def NumEl.store : NumEl → Int → Int
  | .i8, v => v.bmod (2^8)
  | .i16, v => v.bmod (2^16)
  | .i32, v => v.bmod (2^32)
  | .f64, v => v

/-- scan.c 146 `SUM_BITWISE`: `T c=0; for (i) { c+= bit(i); rp[i]=c; }` -/
def sumBitwise (re : NumEl) (c : Int) : List Bool → List Int
  | [] => []
  | b :: bs => let c' := re.store (c + if b then 1 else 0); c' :: sumBitwise re c' bs

/-- scan.c 131-141: fills between the positions of ones. `i` counts the ones seen, `ri` is the write position. -/
def sumSparse (re : NumEl) (xs ia : Nat) (i ri : Nat) : List Nat → List Int
  | [] => if ri < ia then List.replicate (ia - ri) (re.store xs) else []
  | e :: es => List.replicate (e - ri) (re.store i) ++ sumSparse re xs ia (i+1) e es

/-- scan.c 122-159 `scan_add_bool`. The boolean results of the first two cases are given as numbers. `C1(slash, x)` is
the ascending list of positions of ones (property C23). -/
def scan_add_bool (ws : List Word) (ia : Nat) : List Int :=
  let x := fun i => ws.getD i 0#64
  let xs := Fold.bit_sum x ia
  if xs ≤ 1 then
    (listL (if xs = 0 then ws else scan_or ws) ia).map fun b => if b then 1 else 0
  else
    let re : NumEl := if xs ≤ 127 then .i8 else if xs ≤ 32767 then .i16 else if xs ≤ 2147483647 then .i32 else .f64
    if xs < ia/128 then sumSparse re xs ia 0 0 ((List.range ia).filter (bitL ws))
    else sumBitwise re 0 (listL ws ia)

/-- scan.c 324 (`n_sub`): `(2×x₀) - scan_add_bool`; the subtraction is on numbers of magnitude below 2^33, exact. -/
def scan_sub_bool (ws : List Word) (ia : Nat) : List Int :=
  let t : Int := 2 * (if (ws.getD 0 0#64 &&& 1#64) = 1#64 then 1 else 0)
  (scan_add_bool ws ia).map (t - ·)

/-- The overflow flag of `addOn(c, x)` for `i32` (core/stuff.h, `__builtin_add_overflow`). -/
def addOverflows (c x : Int) : Bool := c + x < -2^31 ∨ 2^31 - 1 < c + x

/-- The `i32` loops of scan.c 232-234: `i32 c=r0; for (i) { if (addOn(c,xp[i])) goto base; rp[i]=c; }`; `addOn`
(core/stuff.h) stores the wrapped `i32` sum and reports overflow. `none` is `goto base`. -/
def plusI32 (c : Int) : List Int → Option (List Int)
  | [] => some []
  | x :: xs =>
    let s := NumEl.i32.store (c + x)
    if addOverflows c x then none else (plusI32 s xs).map (s :: ·)

/-- The `f64` loop of scan.c 235, for an abstract `f64` addition on integer-valued doubles. -/
def plusF64 (fadd : Int → Int → Int) (c : Int) : List Int → List Int
  | [] => []
  | x :: xs => fadd c x :: plusF64 fadd (fadd c x) xs

/-- scan.c 218-242 `scan_plus` for an integer list 𝕩 and integer start `r0`; `q_fi32(r0)` is `|r0|` fitting `i32`. -/
def scan_plus (fadd : Int → Int → Int) (r0 : Int) (x : List Int) : List Int :=
  if -2^31 ≤ r0 ∧ r0 ≤ 2^31 - 1 then
    match plusI32 r0 x with
    | some r => r
    | none => plusF64 fadd r0 x
  else plusF64 fadd r0 x

/-- scan.c 165 `MINMAX_SCAN`: `T c=I; for (i) { if (xp[i] C c) c=xp[i]; rp[i]=c; }` with `C` given by `lt`. -/
def minmaxLoop (lt : Int → Int → Bool) (c : Int) : List Int → List Int
  | [] => []
  | x :: xs => let c' := if lt x c then x else c; c' :: minmaxLoop lt c' xs

/-- Largest value of the type; `f64` is not used for this path (`none`). -/
def NumEl.maxV : NumEl → Int
  | .i8 => 2^7 - 1 | .i16 => 2^15 - 1 | .i32 => 2^31 - 1 | .f64 => 0
/-- Smallest value of the type. -/
def NumEl.minV : NumEl → Int
  | .i8 => -2^7 | .i16 => -2^15 | .i32 => -2^31 | .f64 => 0

/-- scan.c 167-179 `scan_min_num`/`scan_max_num` on an integer list of element type `xe`. -/
def scan_min_num (xe : NumEl) (x : List Int) : List Int := minmaxLoop (fun a b => decide (a < b)) xe.maxV x
def scan_max_num (xe : NumEl) (x : List Int) : List Int := minmaxLoop (fun a b => decide (a > b)) xe.minV x

/-- scan.c 182-200 `MINMAX2` for an `i32` 𝕨 (`wv`) on an integer list. For `i8`,`i16`: if `wv` does not fit the type,
either the result is 𝕨 everywhere (`wv C 0`) or the start is the type's extreme value. -/
def minmax2 (lt : Int → Int → Bool) (init : NumEl → Int) (xe : NumEl) (wv : Int) (x : List Int) : List Int :=
  match xe with
  | .i8 | .i16 =>
    if wv ≠ xe.store wv then
      if lt wv 0 then x.map fun _ => wv
      else minmaxLoop lt (init xe) x
    else minmaxLoop lt wv x
  | _ => minmaxLoop lt wv x

def scan2_min_num (xe : NumEl) (wv : Int) (x : List Int) : List Int :=
  minmax2 (fun a b => decide (a < b)) NumEl.maxV xe wv x
def scan2_max_num (xe : NumEl) (wv : Int) (x : List Int) : List Int :=
  minmax2 (fun a b => decide (a > b)) NumEl.minV xe wv x

/-- Boolean 𝕩 with an `i32` 𝕨, scan.c 192: `if (wv C BI) 𝕨 everywhere, else the boolean ∧` or ∨``. As numbers. -/
def scan2_min_bit (wv : Int) (ws : List Word) (n : Nat) : List Int :=
  if wv < 1 then List.replicate n wv else (listL (scan_and ws) n).map fun b => if b then 1 else 0
def scan2_max_bit (wv : Int) (ws : List Word) (n : Nat) : List Int :=
  if wv > 0 then List.replicate n wv else (listL (scan_or ws) n).map fun b => if b then 1 else 0

end Verif.Scan
