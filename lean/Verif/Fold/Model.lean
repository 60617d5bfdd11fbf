import Verif.Bits.Basic
/-!
# Model of the boolean folds of `/repo/src/builtins/fold.c` and the searches of `/repo/src/core/numarr.h`

The argument is a memory of words `x : Nat → Word` with `am` bits. Words past the last one may hold anything (the
functions may read, but must not depend on, word `am/64` when `am` is a multiple of 64: the array is followed by
`ALLOC_PADDING` readable bytes, utils/mem.h).
-/
namespace Verif.Fold
open Verif.Bits

/-- h.h 114 `POPC`, `__builtin_popcountll`: the number of set bits. -/
def POPC (w : Word) : Nat := (List.range 64).countP (fun i => w.getLsbD i)

/-- h.h 113 `CTZ`, `__builtin_ctzll`: the index of the lowest set bit; undefined (`none`) at 0. -/
def CTZ (w : Word) : Option Nat := (List.range 64).find? (fun i => w.getLsbD i)

/-- `for (u64 i = 0; i < l; i++) r = f(r, x[i])`. -/
def loop {α} (f : α → Word → α) (x : Nat → Word) (r : α) : Nat → α
  | 0 => r
  | l+1 => f (loop f x r l) (x l)

/-- fold.c 81-85 `xor_words` -/
def xor_words (x : Nat → Word) (l : Nat) : Word := loop (· ^^^ ·) x 0#64 l

/-- fold.c 86-90 `fold_ne`. `64-am & 63` is `(64-am) & 63` on `u64`; here `am&63 ≠ 0`, so it is `64 - am%64`. -/
def fold_ne (x : Nat → Word) (am : Nat) : Bool :=
  let r := xor_words x (am >>> 6)
  let r := if am % 64 ≠ 0 then r ^^^ (x (am >>> 6) <<< (64 - am % 64)) else r
  POPC r % 2 = 1

/-- fold.c 407-412 `bit_sum`; `i64` cannot overflow as `am < 2^32`. -/
def bit_sum (x : Nat → Word) (am : Nat) : Nat :=
  let r := loop (fun r w => r + POPC w) x 0 (am >>> 6)
  if am % 64 ≠ 0 then r + POPC (x (am >>> 6) <<< (64 - am % 64)) else r

/-- fold.c 92-98 `bit_diff` -/
def bit_diff (x : Nat → Word) (am : Nat) : Int :=
  let a : Word := 0xAAAAAAAAAAAAAAAA#64
  let r := loop (fun r w => r + POPC (w ^^^ a)) x 0 (am >>> 6)
  let r := if am % 64 ≠ 0 then r + POPC ((x (am >>> 6) ^^^ a) <<< (64 - am % 64)) else r
  (r : Int) - (am / 2 : Nat)

/-- `~-(u64)v` -/
def flipMask (v : Bool) : Word := ~~~(-(if v then 1#64 else 0#64))

/-- numarr.h 45-50 `bit_has`: the loop returns early at the first word with a hit. -/
def bit_has (x : Nat → Word) (ia : Nat) (v : Bool) : Bool :=
  let w := flipMask v
  let e := ia / 64
  let q := ia % 64
  let rec go (i : Nat) (fuel : Nat) : Bool :=
    match fuel with
    | 0 => q ≠ 0 && ((x e ^^^ w) &&& ((1#64 <<< q) - 1#64)) ≠ 0#64
    | fuel+1 => if x i ^^^ w ≠ 0#64 then true else go (i+1) fuel
  go 0 e

/-- numarr.h 51-60 `bit_find`. `(ia-q) | CTZ(..)` is kept as bitwise or. `none` marks an undefined `CTZ(0)`. -/
def bit_find (x : Nat → Word) (ia : Nat) (v : Bool) : Option Nat :=
  let w := flipMask v
  let e := ia / 64
  let q := ia % 64
  let rec go (i : Nat) (fuel : Nat) : Option Nat :=
    match fuel with
    | 0 => (CTZ ((w ^^^ x e) ||| (~~~0#64 <<< q))).map fun c => (ia - q) ||| c
    | fuel+1 =>
      let f := w ^^^ x i
      if f ≠ 0#64 then (CTZ f).map fun c => 64*i + c else go (i+1) fuel
  go 0 e

/-- The boolean primitives with a special fold path, fold.c 289-301. -/
inductive Prim where
  | and | or | mul | floor | ceil | add | sub | ne | eq | lt | le | gt | ge
deriving DecidableEq, Repr

/-- Boolean as number. -/
def b2i (b : Bool) : Int := if b then 1 else 0

/-- fold.c 286-303: `𝔽´` of a boolean list of length `ia > 2` (shorter lists are handled before). The result is the
number returned. -/
def fold_c1_bit (p : Prim) (x : Nat → Word) (ia : Nat) : Option Int :=
  match p with
  | .and | .mul | .floor => some (b2i (bit_has x ia false ^^ true))
  | .or | .ceil => some (b2i (bit_has x ia true))
  | .add => some (bit_sum x ia)
  | .sub => some (bit_diff x ia)
  | .ne => some (b2i (fold_ne x ia))
  | .eq => some (b2i (fold_ne x ia ^^ (ia % 2 = 0)))
  | .lt => (bit_find x ia true).map fun f => b2i (f = ia - 1)
  | .le => (bit_find x ia false).map fun f => b2i (f ≠ ia - 1)
  | .gt => (bit_find x ia false).map fun f => (f % 2 : Nat)
  | .ge => (bit_find x ia true).map fun f => b2i (f % 2 = 0)

/-- Outcome of the dyadic boolean fold: a number, signed overflow, or "some other path is taken". -/
inductive FoldOut where
  | val (r : Int) | ub | otherPath
deriving DecidableEq, Repr

/-- fold.c 362-373: `𝕨𝔽´𝕩` for a boolean list and an `i32` 𝕨. `-wi` is computed in `i32`, so it is undefined for
`wi = -2^31`. -/
def fold_c2_bit (p : Prim) (wi : Int) (x : Nat → Word) (ia : Nat) : FoldOut :=
  match p with
  | .add => .val (wi + bit_sum x ia)
  | .sub => if ia % 2 = 1 then (if wi = -2^31 then .ub else .val (-wi + bit_diff x ia)) else .val (wi + bit_diff x ia)
  | .and | .mul | .floor => if wi = 0 ∨ wi = 1 then .val (b2i (wi ≠ 0 && !bit_has x ia false)) else .otherPath
  | .or | .ceil => if wi = 0 ∨ wi = 1 then .val (b2i (wi ≠ 0 || bit_has x ia true)) else .otherPath
  | .ne => if wi = 0 ∨ wi = 1 then .val (b2i ((wi = 1) ^^ fold_ne x ia)) else .otherPath
  | .eq => if wi = 0 ∨ wi = 1 then .val (b2i ((wi = 1) ^^ fold_ne x ia ^^ (ia % 2 = 1))) else .otherPath
  | _ => .otherPath

end Verif.Fold
