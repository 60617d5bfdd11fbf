import Verif.Bits.Basic
/-!
# Model of the boolean scans of `/repo/src/builtins/scan.c` (generic C paths)

The argument is the list of its `BIT_N(ia)` words; loops over words are recursions over that list. `usz`/`u64` loop
counters are not modelled.
-/
namespace Verif.Scan
open Verif.Bits

/-- scan.c 88-93: one word of `scan_ne`, with the carry word `p` (all ones or zero). -/
def neWord (p c : Word) : Word :=
  let r := c ^^^ (c <<< 1)
  let r := r ^^^ (r <<< 2)
  let r := r ^^^ (r <<< 4)
  let r := r ^^^ (r <<< 8)
  let r := r ^^^ (r <<< 16)
  let r := r ^^^ (r <<< 32)
  r ^^^ p

/-- scan.c 80-99 `scan_ne` (the non-Singeli loop 87-95). -/
def scan_ne (p : Word) : List Word → List Word
  | [] => []
  | c :: ws =>
    let r := neWord p c
    r :: scan_ne (-(r >>> 63)) ws

/-- scan.c 100-105 `scan_eq` -/
def scan_eq (x : List Word) : List Word := (scan_ne 0#64 x).map (· ^^^ 0xAAAAAAAAAAAAAAAA#64)

/-- scan.c 107-113 `scan_or`: zero words are copied as zero until the first non-zero one; after it, all ones. -/
def scan_or : List Word → List Word
  | [] => []
  | xi :: ws => if xi ≠ 0#64 then -(xi &&& -xi) :: ws.map (fun _ => ~~~0#64) else 0#64 :: scan_or ws

/-- scan.c 114-120 `scan_and` -/
def scan_and : List Word → List Word
  | [] => []
  | x :: ws =>
    let xi := ~~~x
    if xi ≠ 0#64 then ((xi &&& -xi) - 1#64) :: ws.map (fun _ => 0#64) else ~~~0#64 :: scan_and ws

/-- scan.c 209-214: one word of `scan_lt`. -/
def ltWord (p x : Word) : Word :=
  let m : Word := 0x5555555555555555#64
  let u := -(p >>> 63) &&& ~~~(x + 1#64)
  let c := ((x <<< 1) ||| m) - x
  x &&& (m ^^^ c ^^^ u)

/-- scan.c 205-217 `scan_lt` -/
def scan_lt (p : Word) : List Word → List Word
  | [] => []
  | x :: ws => let r := ltWord p x; r :: scan_lt r ws

/-- arithm.c 16-22 `bit_negate` -/
def bit_negate (x : List Word) : List Word := x.map (~~~ ·)

/-- `*bitarr_ptr(x) ^= 1` (scan.c 321-322): flips the first element. -/
def flipFirst : List Word → List Word
  | [] => []
  | x :: ws => (x ^^^ 1#64) :: ws

/-- The boolean primitives with a special scan path, scan.c 313-324 (dispatch on `rtid`). `CASE_N_OR` is ∨ and ⌈,
`CASE_N_AND` is ∧, × and ⌊. -/
inductive Prim where
  | or | and | ne | eq | lt | le | gt | ge
deriving DecidableEq, Repr

/-- scan.c 315-322: monadic scan of a boolean list. -/
def scan_c1_bit : Prim → List Word → List Word
  | .or, x => scan_or x
  | .and, x => scan_and x
  | .ne, x => scan_ne 0#64 x
  | .eq, x => scan_eq x
  | .lt, x => scan_lt 0#64 x
  | .le, x => bit_negate (scan_lt 0#64 (bit_negate x))
  | .gt, x => scan_and (flipFirst (bit_negate x))
  | .ge, x => scan_or (flipFirst (bit_negate x))

/-- numarr.h 42-44 `bitx` -/
def bitx (w : Bool) : Word := if w then ~~~0#64 else 0#64

/-- scan.c 399-401 and 411-416: dyadic boolean scans with boolean 𝕨; `none` means another path is taken. For ∨ and ∧ with
the absorbing 𝕨, `i64EachDec(v, x)` gives an array of `x`'s shape filled with `v`. -/
def scan_c2_bit : Prim → Bool → List Word → Option (List Word)
  | .ne, w, x => some (scan_ne (-(if w then 1#64 else 0#64)) x)
  | .or, w, x => some (if !w then scan_or x else x.map fun _ => ~~~0#64)
  | .and, w, x => some (if w then scan_and x else x.map fun _ => 0#64)
  | .lt, w, x => some (scan_lt (bitx w) x)
  | _, _, _ => none

/-- scan.c 401: `≠` with a 𝕨 that is a number other than 0 and 1: the carry is `-(1 & ~*xp)`. -/
def scan_ne_nonbit (x : List Word) : List Word :=
  scan_ne (-(1#64 &&& ~~~(x.headD 0#64))) x

end Verif.Scan
