import Verif.BitCopy.Model
/-!
# Model of filling a reshaped array

`/repo/src/builtins/sfns.c` 134-181 (`fill_words`, `reshape_one`) and 315-393 (`reshape_cycle`), with `bit_cpyN` (`/repo/src/utils/mut.h` 113-147) where source and
destination are the same array. Memory is given by its bits. `none` is a write outside of the result, or a `memcpy` whose parts overlap.
-/
namespace Verif.Reshape
open Verif.Bits

/-- Memory: bit `k` is bit `k%8` of byte `k/8`, and bit `k%64` of word `k/64`. -/
abbrev Mem := Nat → Bool

/-- Element `i` of memory, for elements of `w` bits. -/
def elem (m : Mem) (w i : Nat) : BitVec w := (BitVec.ofBoolListLE (firstN (fun j => m (w * i + j)) w)).setWidth w

/-- A word of memory. -/
def word (m : Mem) (i : Nat) : Word := elem m 64 i

/-- `rp[i] = v`, in memory of `lim` bytes. -/
def store (lim : Nat) (m : Mem) (i : Nat) (v : Word) : Option Mem :=
  if 8 * i + 8 ≤ lim then some fun k => if k / 64 = i then v.getLsbD (k % 64) else m k else none

/-- `memcpy(rp, xp, n)`: `n` bytes from the start of another array. -/
def memcpy (lim : Nat) (m x : Mem) (n : Nat) : Option Mem := if n ≤ lim then some fun k => if k < 8 * n then x k else m k else none

/-- `memcpy(rp+d, rp, n)` within the result. -/
def memcpySelf (lim : Nat) (m : Mem) (d n : Nat) : Option Mem :=
  if d + n ≤ lim ∧ (n = 0 ∨ n ≤ d) then some fun k => if 8 * d ≤ k ∧ k < 8 * (d + n) then m (k - 8 * d) else m k else none

/-! ## Copying bits within an array -/

/-- `READ` of `bit_cpy`, mut.h 120-124, where the source is `r` itself from bit 0 on, at the destination word `ti`. Before the array there may be anything. -/
def READ (before : Int → Word) (m : Mem) (rs ti : Nat) : Word :=
  BitCopy.READ (fun i => if i < 0 then before i else word m i.toNat) (- (rs : Int)) ti

/-- mut.h 133-134: `for (; ti<ei; ti++) r[ti] = READ` for `n = ei-ti` words. -/
def copyWords (lim : Nat) (before : Int → Word) (rs : Nat) : Nat → Nat → Mem → Option Mem
  | 0, _, m => some m
  | n + 1, ti, m => (store lim m ti (READ before m rs ti)).bind fun m => copyWords lim before rs n (ti + 1) m

/-- `bit_cpyN(r, rs, r, 0, l)`, mut.h 113-147. -/
def bitCpy (lim : Nat) (before : Int → Word) (m : Mem) (rs l : Nat) : Option Mem :=
  let re := rs + l
  let ti := rs >>> 6
  let ei := re >>> 6
  if ti ≠ ei then
    (if rs % 64 ≠ 0 then
      let k := BitCopy.mask (rs % 64)
      (store lim m ti ((READ before m rs ti &&& ~~~k) ||| (word m ti &&& k))).map fun m => (m, ti + 1)
    else some (m, ti)).bind fun (m, ti) =>
    (copyWords lim before rs (ei - ti) ti m).bind fun m =>
    if re % 64 ≠ 0 then
      let k := BitCopy.mask (re % 64)
      store lim m ei ((READ before m rs ei &&& k) ||| (word m ei &&& ~~~k))
    else some m
  else if rs ≠ re then
    let k := BitCopy.mask (rs % 64) ^^^ BitCopy.mask (re % 64)
    store lim m ti ((READ before m rs ti &&& k) ||| (word m ti &&& ~~~k))
  else some m

/-! ## reshape_cycle -/

/-- `do { v |= v<<b; b*=2; } while (b%8 && b<64);`, 341. -/
def grow : Nat → Word → Nat → Word × Nat
  | 0, v, b => (v, b)
  | fuel + 1, v, b =>
    let v := v ||| (v <<< b)
    let b := b * 2
    if b % 8 ≠ 0 ∧ b < 64 then grow fuel v b else (v, b)

/-- The loop 347-354. -/
def doubleBits (lim nw nia : Nat) (before : Int → Word) : Nat → Nat → Mem → Option (Nat × Mem)
  | 0, _, _ => none
  | fuel + 1, b, m =>
    if b % 8 = 0 then some (b, m)
    else if b > nw * 32 then
      (if b < nia then bitCpy lim before m b (nia - b) else some m).map fun m => (64 * nw, m)
    else (bitCpy lim before m b b).bind fun m => doubleBits lim nw nia before fuel (b * 2) m

/-- `while (b<64) { v |= v<<b; b*=2; }`, 383. -/
def fillOut : Nat → Word → Nat → Word
  | 0, v, _ => v
  | fuel + 1, v, b => if b < 64 then fillOut fuel (v ||| (v <<< b)) (b * 2) else v

/-- The loop of `fill_words`, 134-140. -/
def fillLoop (lim : Nat) (v : Word) : Nat → Nat → Mem → Option Mem
  | 0, _, m => some m
  | n + 1, i, m => (store lim m i v).bind (fillLoop lim v n (i + 1))

/-- `fill_words(rp, v, bytes)`, 134-140. -/
def fillWords (lim : Nat) (m : Mem) (v : Word) (bytes : Nat) : Option Mem :=
  (fillLoop lim v (bytes / 8) 0 m).bind fun m =>
    if bytes % 8 ≠ 0 then
      if bytes ≤ lim then some fun k => if 64 * (bytes / 8) ≤ k ∧ k < 8 * bytes then v.getLsbD (k - 64 * (bytes / 8)) else m k else none
    else some m

/-- `for (; bi<=l/2; bi+=bi) memcpy(rp+bi, rp, bi);`, 388. -/
def doubleBytes (lim l : Nat) : Nat → Nat → Mem → Option (Nat × Mem)
  | 0, _, _ => none
  | fuel + 1, bi, m => if bi ≤ l / 2 then (memcpySelf lim m bi bi).bind fun m => doubleBytes lim l fuel (bi + bi) m else some (bi, m)

/-- `for (; e+bi<=bf; e+=bi) memcpy(rp+e, rp, bi);`, 389. -/
def copyBlocks (lim bi bf : Nat) : Nat → Nat → Mem → Option (Nat × Mem)
  | 0, _, _ => none
  | fuel + 1, e, m => if e + bi ≤ bf then (memcpySelf lim m e bi).bind fun m => copyBlocks lim bi bf fuel (e + bi) m else some (e, m)

/-- 378-391: `bi` bytes are present, `bf` are wanted. -/
def finish (lim bi bf : Nat) (m : Mem) : Option Mem :=
  if bi ≤ 8 ∧ bi &&& (bi - 1) = 0 then
    let b := bi * 8
    fillWords lim m (fillOut 7 (word m 0 &&& (BitVec.allOnes 64 >>> (64 - b))) b) bf
  else
    let l := if 2 ^ 15 > bf then bf else 2 ^ 15
    (doubleBytes lim l 17 bi m).bind fun (bi, m) =>
      (copyBlocks lim bi bf (bf + 1) bi m).bind fun (e, m) =>
        if e < bf then memcpySelf lim m e (bf - e) else some m

/-- `reshape_cycle` for a boolean `𝕩` of `xia` elements, 2 or more, 329-360 and 378-391. `junk` is what new memory contains. -/
def cycleBits (nia xia : Nat) (x : Mem) (junk : Mem) (before : Int → Word) : Option Mem :=
  let nw := (nia + 63) / 64
  let lim := 8 * nw
  let b := xia
  (if b % 8 ≠ 0 then
    (if b < 64 then
      let (v, b) := grow 6 (word x 0 &&& (BitVec.allOnes 64 >>> (64 - b))) b
      (store lim junk 0 v).bind fun m =>
        (if b > 64 ∧ nia > 64 then store lim m 1 (v >>> (64 - b / 2)) else some m).map fun m => (b, m)
    else (memcpy lim junk x ((b + 7) / 8)).map fun m => (b, m)).bind fun (b, m) => doubleBits lim nw nia before 64 b m
  else (memcpy lim junk x (b / 8)).map fun m => (b, m)).bind fun (b, m) =>
  let bi := b / 8
  let bf := 8 * nw
  if bi = 1 then finish lim bf bf fun k => if k < 8 * bf then m (k % 8) else m k
  else finish lim bi bf m

/-- `reshape_cycle` for elements of `2^xk` bytes, 370-391. -/
def cycleTyped (nia xia xk : Nat) (x : Mem) (junk : Mem) : Option Mem :=
  let bi := xia <<< xk
  let bf := nia <<< xk
  (memcpy bf junk x bi).bind fun m => finish bf bi bf m

/-- The loop 366. -/
def copyItems {α} (x : List α) : Nat → List α → List α
  | 0, r => r
  | n + 1, r => copyItems x n (r ++ x)

/-- `reshape_cycle` for other values, 362-369. -/
def cycleItems {α} (nia : Nat) (x : List α) : List α :=
  copyItems x (nia / x.length) [] ++ x.take (nia % x.length)

/-! ## reshape_one -/

/-- A number or character to fill with. -/
inductive Atom
  | int (n : Int)
  | float (u : Word)
  | chr (c : Nat)
deriving DecidableEq

/-- The element types. -/
inductive El
  | bit | i8 | i16 | i32 | f64 | c8 | c16 | c32
deriving DecidableEq

/-- log2 of the width in bits. -/
def El.log : El → Nat
  | .bit => 0 | .i8 | .c8 => 3 | .i16 | .c16 => 4 | .i32 | .c32 => 5 | .f64 => 6

/-- `memset(rp, b, n)`. -/
def memset (lim : Nat) (m : Mem) (b : BitVec 8) (n : Nat) : Option Mem := if n ≤ lim then some fun k => if k < 8 * n then b.getLsbD (k % 8) else m k else none

/-- `reshape_one` for numbers and characters, 148-181: the type of the result and its memory. `int` is for numbers with `(i32)x.f == x.f`. -/
def reshapeOne (nia : Nat) (x : Atom) (junk : Mem) : Option (El × Mem) :=
  match x with
  | .float u => (fillWords (nia * 8) junk u (nia * 8)).map fun m => (.f64, m)
  | .int n =>
    if n = (BitVec.ofInt 8 n).toInt then
      if (BitVec.ofInt 8 n).toNat ≤ 1 then (memset (8 * ((nia + 63) / 64)) junk (BitVec.ofInt 8 (-n)) (8 * ((nia + 63) / 64))).map fun m => (.bit, m)
      else (memset nia junk (BitVec.ofInt 8 n) nia).map fun m => (.i8, m)
    else if n = (BitVec.ofInt 16 n).toInt then (fillWords (nia * 2) junk ((BitVec.ofInt 16 n).setWidth 64 * 0x0001000100010001#64) (nia * 2)).map fun m => (.i16, m)
    else (fillWords (nia * 4) junk ((BitVec.ofInt 32 n).setWidth 64 * 0x0000000100000001#64) (nia * 4)).map fun m => (.i32, m)
  | .chr c =>
    if c < 2 ^ 8 then (memset nia junk (BitVec.ofNat 8 c) nia).map fun m => (.c8, m)
    else if c < 2 ^ 16 then (fillWords (nia * 2) junk (BitVec.ofNat 64 c * 0x0001000100010001#64) (nia * 2)).map fun m => (.c16, m)
    else (fillWords (nia * 4) junk (BitVec.ofNat 64 c * 0x0000000100000001#64) (nia * 4)).map fun m => (.c32, m)

end Verif.Reshape
