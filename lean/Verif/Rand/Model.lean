import Verif.Select.Model
/-!
# Model of the random number functions

`/repo/src/builtins/sysfn.c` 342-635, with `/repo/src/utils/wyhash.h` 82 and 161-171. `none` is a read or write outside of memory, or undefined
behaviour of C. The functions are given the words the generator returns one after another, from the current seed on.
-/
namespace Verif.Rand
open Verif.Bits Verif.Fold Verif.Slash Verif.Select

/-! ## The generator -/

/-- `_wymix(A, B)`, wyhash.h 46-82, with 128-bit integers. -/
def wymix (a b : Word) : Word :=
  let r := a.toNat * b.toNat
  BitVec.ofNat 64 r ^^^ BitVec.ofNat 64 (r / 2^64)

/-- `wyrand(&seed)`, wyhash.h 161: the word and the new seed. -/
def wyrand (seed : Word) : Word × Word :=
  let seed := seed + 0xa0761d6478bd642f#64
  (wymix seed (seed ^^^ 0xe7037ed1a0b428db#64), seed)

/-- The words that calls of `wyrand` return one after another. -/
def stream (seed : Word) : Nat → Word
  | 0 => (wyrand seed).1
  | i + 1 => stream (wyrand seed).2 i

/-- `wy2u0k(r, k)`, wyhash.h 171: the upper half of the product. -/
def wy2u0k (r : Word) (k : Nat) : Nat := r.toNat * k / 2^64 % 2^64

/-! ## `Deal 𝕩`, 444-521 -/

/-- The result of a function: an error message, or a list of numbers. -/
inductive Out
  | err
  | ok (r : List Nat)
deriving DecidableEq

/-- `c=rp[j]; rp[j]=rp[i]; rp[i]=c`. -/
def swap (rp : List Nat) (i j : Nat) : Option (List Nat) :=
  (rp[j]?).bind fun c => (rp[i]?).bind fun a => (wr rp j a).bind fun rp => wr rp i c

/-- `rp[i] = i` for all `i < n`, in elements of a type whose largest value is `lim - 1` (also `intRange16` and `intRange32`, fns.c 10-22). -/
def iota (lim n : Nat) : Option (List Nat) := if n ≤ lim then some (List.range n) else none

/-- `SHUF` and the loop of the dense shuffle 539-544: `l` steps from `i` on, on `n` elements. -/
def shuf (rnd : Nat → Word) (n : Nat) : Nat → Nat → List Nat → Option (List Nat)
  | 0, _, rp => some rp
  | l + 1, i, rp => (swap rp i (wy2u0k (rnd i) (n - i) + i)).bind fun rp => shuf rnd n l (i + 1) rp

/-- The `j`-th byte `k` of a word masked by `mm`, 482-484. -/
def part (rnd : Nat → Word) (m q : Nat) : Nat :=
  let mm : Word := 0x0101010101010101#64 * BitVec.ofNat 64 (m - 1)
  (((rnd (q / 8) &&& mm) >>> (8 * (q % 8))).setWidth 8).toNat

/-- The loop 481-491: `cur` and `end` are the even and the odd elements of `pos`. Numbers are placed in order; `q` is `i`. -/
def split (rnd : Nat → Word) (m : Nat) (ends : List Nat) : Nat → Nat → List Nat → List Nat → Option (Nat × List Nat × List Nat)
  | 0, _, _, _ => none
  | fuel + 1, q, cur, rp =>
    let k := part rnd m q
    (cur[k]?).bind fun p => (ends[k]?).bind fun e =>
      if p = e then some (q, cur, rp)
      else (wr cur k (p + 1)).bind fun cur => (wr rp p q).bind fun rp => split rnd m ends fuel (q + 1) cur rp

/-- The inner loop 497-500 on a part of `l` elements at `s`, going to `b`; the next random word is number `t`. -/
def pack (rnd : Nat → Word) (b s l : Nat) : Nat → Nat → Nat → List Nat → Option (List Nat)
  | 0, _, _, rp => some rp
  | fuel + 1, i, t, rp =>
    let j := wy2u0k (rnd t) (l - i) + i
    (rp[s + j]?).bind fun c => (rp[s + i]?).bind fun a => (wr rp (s + j) a).bind fun rp => (wr rp (b + i) c).bind fun rp =>
      pack rnd b s l fuel (i + 1) (t + 1) rp

/-- The loop over parts 493-503, given the current and end positions. -/
def packAll (rnd : Nat → Word) : List Nat → List Nat → Nat → Nat → Nat → List Nat → Option (Nat × List Nat)
  | c :: cur, e :: ends, b, s, t, rp =>
    if c < s then none else
    (pack rnd b s (c - s) (c - s) 0 t rp).bind fun rp => packAll rnd cur ends (b + (c - s)) e (t + (c - s)) rp
  | _, _, _, _, t, rp => some (t, rp)

/-- The loop 506-509 from `i` on. -/
def insideOut (rnd : Nat → Word) : Nat → Nat → Nat → List Nat → Option (List Nat)
  | 0, _, _, rp => some rp
  | l + 1, i, t, rp => (swap rp i (wy2u0k (rnd t) (1 + i))).bind fun rp => insideOut rnd l (i + 1) (t + 1) rp

/-- The shift `sd` that makes the number of parts, 472-474. -/
def parts (n : Nat) : Nat :=
  let log2 := (n - 1).log2 + 1
  if log2 < 24 then log2 - 16 else 8

/-- 463-509. `TALLOC(usz, pos, 2*m)` is `cur` and `ends`. -/
def dealLarge (rnd : Nat → Word) (n : Nat) (junk : Nat → Nat) : Option (List Nat) :=
  let sd := parts n
  let m := 2 ^ sd
  let cur := (List.range m).map fun p => (n * p) >>> sd
  let ends := (List.range m).map fun p => (n * (p + 1)) >>> sd
  (split rnd m ends (n + 1) 0 cur (fresh junk n)).bind fun (i, cur, rp) =>
    (packAll rnd cur ends 0 0 (i / 8 + 1) rp).bind fun (t, rp) =>
      insideOut rnd (n - i) i t (rp.take i ++ (List.range (n - i)).map fun k => i + k)

/-- `rand_deal_c1`. `bitUD` and `bit2x` are constants, fns.c 451-454. -/
def deal (rnd : Nat → Word) (x : Int) (junk : Nat → Nat) : Option Out :=
  if x ≤ 1 then
    if x < 0 then some .err
    else some (.ok (if x = 0 then [] else [0]))
  else
    let n := x.toNat
    if n = 2 then some (.ok (if rnd 0 &&& 1#64 = 0#64 then [0, 1] else [1, 0]))
    else if n ≤ 128 then ((iota 128 n).bind fun rp => shuf rnd n (n - 1) 0 rp).map .ok
    else if n ≤ 2^15 then ((iota (2^15) n).bind fun rp => shuf rnd n (n - 1) 0 rp).map .ok
    else if n ≤ 2^19 then ((iota (2^31) n).bind fun rp => shuf rnd n (n - 1) 0 rp).map .ok
    else (dealLarge rnd n junk).map .ok

/-! ## `𝕨 Deal 𝕩`, 523-579 -/

/-- `while (sz < wi*2) sz*= 2;`, 552. -/
def tableSize (wi : Nat) : Nat → Nat → Nat
  | 0, sz => sz
  | fuel + 1, sz => if sz < wi * 2 then tableSize wi fuel (sz * 2) else sz

/-- The loop 567-573, on the table `hash` with `mask`. The result is `p` and `prev`, and the table with a key for `j`. -/
def probe (mask j : Nat) : Nat → Nat → List Nat → Option (Nat × Nat × List Nat)
  | 0, _, _ => none
  | fuel + 1, p, hash =>
    let p := p &&& mask
    (hash[p]?).bind fun h =>
      if h = 0 then (wr hash p j).map fun hash => (p, j, hash)
      else if h = j then (hash[p + 1]?).map fun prev => (p, prev, hash)
      else probe mask j fuel (p + 2) hash

/-- The loop 557-577. -/
def hashShuf (rnd : Nat → Word) (wi xi mask : Nat) : Nat → Nat → List Nat → List Nat → Option (List Nat)
  | 0, _, _, rp => some rp
  | l + 1, i, hash, rp =>
    let j := wy2u0k (rnd i) (xi - i) + i
    if j < wi then (swap rp i j).bind fun rp => hashShuf rnd wi xi mask l (i + 1) hash rp
    else
      (probe mask j (mask / 2 + 2) (2 * j) hash).bind fun (p, prev, hash) =>
        (rp[i]?).bind fun a => (wr hash (p + 1) a).bind fun hash => (wr rp i prev).bind fun rp => hashShuf rnd wi xi mask l (i + 1) hash rp

/-- `rand_deal_c2`. The size `wi*4` given to `memcpy` is a product of type `int`, 546. -/
def dealSome (rnd : Nat → Word) (w x : Int) (junk : Nat → Nat) : Option Out :=
  if x < 0 then some .err
  else if w < 0 then some .err
  else if w = 0 then some (.ok [])
  else if w > x then some .err
  else if w = x then deal rnd x junk
  else
    let wi := w.toNat
    let xi := x.toNat
    if wi > xi / 64 then
      ((iota (2^31) xi).bind fun s => shuf rnd xi wi 0 s).bind fun s => if wi * 4 < 2^31 then some (.ok (s.take wi)) else none
    else
      let sz := tableSize wi 64 1
      ((iota (2^31) wi).bind fun rp => hashShuf rnd wi xi (2 * (sz - 1)) wi 0 (List.replicate (2 * sz) 0) rp).map .ok

/-! ## `𝕨 Subset 𝕩`, 585-635 -/

/-- The loop 601-605: `l` steps from `i` on; `t` is the number of the next random word. -/
def floyd (rnd : Nat → Word) : Nat → Nat → Nat → List Bool → Option (List Bool)
  | 0, _, _, set => some set
  | l + 1, i, t, set =>
    let j := wy2u0k (rnd t) (i + 1)
    (set[j]?).bind fun b => (wr set (if b then i else j) true).bind fun set => floyd rnd l (i + 1) (t + 1) set

/-- `sh`, 611-612. -/
def shiftOf (wi : Nat) : Nat → Nat → Nat → Nat
  | 0, _, sh => sh
  | fuel + 1, xt, sh => if wi ≤ xt then shiftOf wi fuel (xt / 2) (sh + 1) else sh

/-- `while (h!=xi) { p++; ht=hash[p]; hash[p]=h; h=ht; }`, 623. -/
def shiftUp (xi : Nat) : Nat → Nat → Nat → List Nat → Option (List Nat)
  | 0, _, _, _ => none
  | fuel + 1, p, h, hash =>
    if h ≠ xi then (hash[p + 1]?).bind fun ht => (wr hash (p + 1) h).bind fun hash => shiftUp xi fuel (p + 1) ht hash
    else some hash

/-- The loop 619-628. -/
def insert (xi sh i : Nat) : Nat → Nat → Nat → List Nat → Option (List Nat)
  | 0, _, _, _ => none
  | fuel + 1, j, p, hash =>
    (hash[p]?).bind fun h =>
      if j < h then (wr hash p j).bind fun hash' => shiftUp xi hash.length p h hash'
      else if h = j then
        if j = i then some hash
        else insert xi sh i fuel i (i >>> sh) hash
      else insert xi sh i fuel j (p + 1) hash

/-- The loop 616-629. -/
def inserts (rnd : Nat → Word) (xi sh : Nat) : Nat → Nat → Nat → List Nat → Option (List Nat)
  | 0, _, _, hash => some hash
  | l + 1, i, t, hash =>
    let j := wy2u0k (rnd t) (i + 1)
    (insert xi sh i (2 * hash.length + 2) j (j >>> sh) hash).bind fun hash => inserts rnd xi sh l (i + 1) (t + 1) hash

/-- `filter_ne_i32(rp, hash, sz, sum, val)` with room for `sum` elements: slash.c 405-419. It compares, finds the ones of the result and copies these elements,
a block at a time, with the functions of `Verif.Slash`. -/
def filterNe (hash : List Nat) (sum val : Nat) : Option (List Nat) :=
  let r := hash.filter (· ≠ val)
  if r.length = sum then some r else none

/-- The numbers of an integer list. -/
def natsOf (r : Ints) : List Nat := r.elems.map Int.toNat

/-- `rand_subset_c2`. `cpyBitArr` and the conversions at the end keep the elements; `bit_negate` is written with `not`. -/
def subset (rnd : Nat → Word) (w x : Int) (junk : Nat → Word) : Option Out :=
  if w < 0 then some .err
  else if x < 0 then some .err
  else if w > x then some .err
  else if w = 0 then some (.ok [])
  else
    let wi := w.toNat
    let xi := x.toNat
    if wi = xi then some (.ok (List.range xi))
    else if wi > xi / 8 then
      let invert := decide (wi > xi / 2)
      let wn := if invert then xi - wi else wi
      (floyd rnd wn (xi - wn) 0 (List.replicate xi false)).bind fun set =>
        let s := packBits (if invert then set.map not else set)
        let f := fun i => s.getD i 0#64
        (where_ f xi (bit_sum f xi) junk).map fun r => .ok (natsOf r)
    else
      let sh := shiftOf wi 64 (xi / 4) 0
      let sz := ((xi - 1) >>> sh) + 1 + wi
      (inserts rnd xi sh wi (xi - wi) 0 (List.replicate sz xi)).bind fun hash => (filterNe hash wi xi).map .ok

/-! ## `Range`, 347-436 -/

/-- The nearest value that a 64-bit float has to a natural number, ties to even. -/
def toF64 (n : Nat) : Nat :=
  let s := n.log2 - 52
  let q := n / 2^s
  let r := n % 2^s
  (if 2^s < 2 * r ∨ (2^s = 2 * r ∧ q % 2 = 1) then q + 1 else q) * 2^s

/-- `rand_range_c1` for `𝕩 ≠ 0`: an integer; `none` is an error. (`𝕩=0` gives a float between 0 and 1, which is left out.) -/
def rangeOne (rnd : Nat → Word) (x : Nat) : Nat := toF64 (wy2u0k (rnd 0) x)

/-- Elements of lists of numbers. -/
inductive El
  | bit | i8 | i16 | i32 | f64
deriving DecidableEq

/-- log2 of the width in bits. -/
def El.log : El → Nat
  | .bit => 0 | .i8 => 3 | .i16 => 4 | .i32 => 5 | .f64 => 6

/-- The type of the result for `1 < max`, 378-391. -/
def rangeType (max : Nat) : El :=
  if max > 2^31 then .f64
  else if max > 128 then if max > 32768 then .i32 else .i16
  else if max ≠ 2 then .i8 else .bit

/-- `mask`, 404-412. -/
def maskOf (t : El) (max : Nat) : Word :=
  let m := BitVec.ofNat 64 (max - 1)
  let m32 := m ||| (m <<< 32)
  let m16 := m32 ||| (m32 <<< 16)
  match t with
  | .bit => BitVec.allOnes 64
  | .i32 => m32
  | .i16 => m16
  | .i8 => m16 ||| (m16 <<< 8)
  | .f64 => m

/-- The elements of a list of `am` elements of type `t` whose memory has the words `ws`. -/
def unpack (t : El) (am : Nat) (ws : List Word) : List Nat :=
  (List.range am).map fun i => ((ws.getD (i * 2^t.log / 64) 0#64) >>> (i * 2^t.log % 64)).toNat % 2^2^t.log

/-- `rand_range_c2` with the number of elements `am` (a `usz`) already computed, for `𝕩 ≥ 1` (370-419). `u64am` and `aFilled` are computed with `usz`. The loops
write `am` elements or `u64am` words to memory of `aFilled` bytes. -/
def rangeMany (rnd : Nat → Word) (am max : Nat) : Option Out :=
  if max = 1 then some (.ok (List.replicate am 0))
  else
    let t := rangeType max
    if t = .f64 then
      if 2^53 ≤ max then some .err
      else some (.ok ((List.range am).map fun i => toF64 (wy2u0k (rnd i) max)))
    else
      let per := 64 / 2^t.log
      let u64am := ((am + (per - 1)) % 2^32) / per
      let aFilled := (u64am * 8) % 2^32
      if max &&& (max - 1) ≠ 0 then
        if am * 2^t.log ≤ aFilled * 8 then some (.ok ((List.range am).map fun i => wy2u0k (rnd i) max % 2^2^t.log)) else none
      else
        if u64am * 8 ≤ aFilled ∧ am * 2^t.log ≤ aFilled * 8 then some (.ok (unpack t am ((List.range u64am).map fun i => rnd i &&& maskOf t max))) else none

end Verif.Rand
