import Verif.Bits.Basic
/-!
# Model of `bit_cpy` (`/repo/src/utils/mut.h` 113-147), bit fill (`/repo/src/utils/mut.c` 165-181) and boolean
reverse (`/repo/src/builtins/sfns.c` 1174-1184, `/repo/src/core/stuff.h` 12-18)

The destination is a memory of words, together with a log of the word indices stored to. The source is a separate memory
indexed by integers: `bit_cpy` may read the word before the source's first (its bits are masked away), so reads at
negative indices are real. `usz` and `u64` indices are naturals; `d`, `dp` are the signed differences of the C code.
-/
namespace Verif.BitCopy
open Verif.Bits

/-- Memory and the indices stored to, most recent first. -/
structure St where
  mem : Nat → Word
  log : List Nat

/-- `r[i] = v` -/
def St.store (s : St) (i : Nat) (v : Word) : St := ⟨fun j => if j = i then v else s.mem j, i :: s.log⟩

/-- mut.h 123-125 `READ` at destination word `ti`: `dp = d>>6` (arithmetic shift), `df = d&63`. -/
def READ (x : Int → Word) (d : Int) (ti : Nat) : Word :=
  let dp := d >>> 6
  let df := (d % 64).toNat
  if df = 0 then x (ti + dp) else (x (ti + dp) >>> df) ||| (x (ti + dp + 1) <<< (64 - df))

/-- `(1ULL << n) - 1` -/
def mask (n : Nat) : Word := (1#64 <<< n) - 1#64

/-- mut.h 133-134: `for (; ti<ei; ti++) r[ti] = READ` for `n = ei-ti` words. -/
def copyWords (x : Int → Word) (d : Int) (s : St) (ti : Nat) : Nat → St
  | 0 => s
  | n+1 => copyWords x d (s.store ti (READ x d ti)) (ti+1) n

/-- mut.h 113-147 `bit_cpy` -/
def bit_cpy (r : Nat → Word) (rs : Nat) (x : Int → Word) (xs l : Nat) : St :=
  let re := rs + l
  let d : Int := (xs : Int) - (rs : Int)
  let ti := rs >>> 6
  let ei := re >>> 6
  let s : St := ⟨r, []⟩
  if ti ≠ ei then
    let (s, ti) :=
      if rs % 64 ≠ 0 then
        let m := mask (rs % 64)
        (s.store ti ((READ x d ti &&& ~~~m) ||| (s.mem ti &&& m)), ti+1)
      else (s, ti)
    let s := copyWords x d s ti (ei - ti)
    if re % 64 ≠ 0 then
      let m := mask (re % 64)
      s.store ei ((READ x d ei &&& m) ||| (s.mem ei &&& ~~~m))
    else s
  else if rs ≠ re then
    let m := mask (rs % 64) ^^^ mask (re % 64)
    s.store ti ((READ x d ti &&& m) ||| (s.mem ti &&& ~~~m))
  else s

/-- mut.c 176: `for (usz i = (ms>>6)+1; i < (me>>6); i++) p[i] = vx` for `n` words. -/
def fillWords (vx : Word) (s : St) (i : Nat) : Nat → St
  | 0 => s
  | n+1 => fillWords vx (s.store i vx) (i+1) n

/-- mut.c 165-181: filling `l` bits from `ms` with `v`. -/
def bit_fill (p : Nat → Word) (ms : Nat) (v : Bool) (l : Nat) : St :=
  let me := ms + l
  let s : St := ⟨p, []⟩
  let put (s : St) (i : Nat) (m : Word) : St := s.store i (if v then s.mem i ||| m else s.mem i &&& ~~~m)
  if ms >>> 6 = me >>> 6 then put s (ms >>> 6) ((1#64 <<< (me % 64)) - (1#64 <<< (ms % 64)))
  else
    let vx : Word := if v then ~~~0#64 else 0#64
    let m0 := mask (ms % 64)
    let s := s.store (ms >>> 6) (if v then s.mem (ms >>> 6) ||| ~~~m0 else s.mem (ms >>> 6) &&& m0)
    let s := fillWords vx s ((ms >>> 6) + 1) ((me >>> 6) - ((ms >>> 6) + 1))
    put s (me >>> 6) (mask (me % 64))

/-- `__builtin_bswap64`: byte order reversed. -/
def bswap64 (x : Word) : Word :=
  (x.extractLsb' 0 8 ++ x.extractLsb' 8 8 ++ x.extractLsb' 16 8 ++ x.extractLsb' 24 8 ++
   x.extractLsb' 32 8 ++ x.extractLsb' 40 8 ++ x.extractLsb' 48 8 ++ x.extractLsb' 56 8 : BitVec 64)

/-- stuff.h 12-18 `bit_reverse64` -/
def bit_reverse64 (x : Word) : Word :=
  let c := bswap64 x
  let c := (c &&& 0x0f0f0f0f0f0f0f0f#64) <<< 4 ||| (c &&& 0xf0f0f0f0f0f0f0f0#64) >>> 4
  let c := (c &&& 0x3333333333333333#64) <<< 2 ||| (c &&& 0xcccccccccccccccc#64) >>> 2
  (c &&& 0x5555555555555555#64) <<< 1 ||| (c &&& 0xaaaaaaaaaaaaaaaa#64) >>> 1

/-- sfns.c 1181: the in-place shifting loop from word `i` on, `k` words: `rp[i] = rp[i]>>sh | rp[i+1]<<(64-sh)`. -/
def shiftLoop (sh : Nat) (rp : Nat → Word) (i : Nat) : Nat → (Nat → Word)
  | 0 => rp
  | k+1 => shiftLoop sh (fun j => if j = i then (rp i >>> sh) ||| (rp (i+1) <<< (64 - sh)) else rp j) (i+1) k

/-- sfns.c 1174-1184: reverse of an `n`-element boolean list, `n ≥ 2`; `rp0` is the uninitialised result memory. -/
def reverse_bits (xp rp0 : Nat → Word) (n : Nat) : Nat → Word :=
  let g := (n + 63) / 64
  let e := g - 1
  let rp := fun i => if i < g then bit_reverse64 (xp (e - i)) else rp0 i
  if n % 64 ≠ 0 then
    let sh := (64 - n % 64) % 64
    let rp := shiftLoop sh rp 0 e
    fun j => if j = e then rp e >>> sh else rp j
  else rp

end Verif.BitCopy
