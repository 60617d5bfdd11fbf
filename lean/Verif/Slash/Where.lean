import Verif.Fold.Model
import Verif.Slash.Spec
/-!
# Indices of a boolean list: model

`src/builtins/slash.c` 117-188 and 252-316, without Singeli: the position of every one of a boolean list.

The argument is a memory of words.  Memory that is written is a list with its capacity and any contents: an access
outside of it gives `none`, as does reading a word after the last of the argument where the C code would go on.
Lengths are below 2^32, so `usz` and `u64` sums and products of them do not wrap.
-/
namespace Verif.Slash
open Verif.Bits Verif.Fold

/-- `m[i] = v`. -/
def wr {α} (m : List α) (i : Nat) (v : α) : Option (List α) := if i < m.length then some (m.set i v) else none

/-! ## `WHERE_DENSE`, 119-124 -/

/-- `((u8*)SRC)[ii]` (little endian). -/
def byteAt (x : Nat → Word) (ii : Nat) : BitVec 8 := (x (ii / 8) >>> (8 * (ii % 8))).setWidth 8

/-- `for (k…) { *DST=OFF+8*ii+k; DST+=v&1; v>>=1; }`, `k` iterations left; `f` converts to the type of `DST`. -/
def denseByte {α} (f : Nat → α) (o : Nat) : Nat → BitVec 8 → List α → Nat → Option (List α × Nat)
  | 0, _, m, p => some (m, p)
  | k + 1, v, m, p => (wr m p (f (o + (8 - (k + 1))))).bind fun m => denseByte f o k (v >>> 1) m (p + (v &&& 1).toNat)

/-- The bytes from `ii`, `k` of them left. -/
def dense {α} (f : Nat → α) (x : Nat → Word) (off : Nat) : Nat → Nat → List α → Nat → Option (List α × Nat)
  | 0, _, m, p => some (m, p)
  | k + 1, ii, m, p => (denseByte f (off + 8 * ii) 8 (byteAt x ii) m p).bind fun (m, p) => dense f x off k (ii + 1) m p

/-- `WHERE_DENSE(SRC, DST, LEN, OFF)` with `DST = m + p`. -/
def whereDense {α} (f : Nat → α) (x : Nat → Word) (m : List α) (p len off : Nat) : Option (List α) :=
  (dense f x off ((len + 7) / 8) 0 m p).map (·.1)

/-! ## `WHERE_SPARSE`, 127-130 -/

/-- `for (u64 v=…; v!=0; v&=v-1) R[j++] = ii*64 + CTZ(v);` with `R[j]` at `p`; at most 64 iterations. -/
def sparseWord {α} (f : Nat → α) (o : Nat) : Nat → Word → List α → Nat → Option (List α × Nat)
  | fuel, v, m, p =>
    if v = 0#64 then some (m, p)
    else match fuel with
      | 0 => none
      | fuel + 1 => (CTZ v).bind fun c => (wr m p (f (o + c))).bind fun m => sparseWord f o fuel (v &&& (v - 1#64)) m (p + 1)

/-- `for (usz ii=I0, j=0; j<S; ii++)` until `R[j]` is at `e`; `k` words left. -/
def sparse {α} (f : Nat → α) (x : Nat → Word) (e : Nat) : Nat → Nat → List α → Nat → Option (List α)
  | k, ii, m, p =>
    if p < e then
      match k with
      | 0 => none
      | k + 1 => (sparseWord f (64 * ii) 64 (x ii) m p).bind fun (m, p) => sparse f x e k (ii + 1) m p
    else some m

/-! ## Branchless sparse Where, 132-175 -/

def bspMax : Nat := 2^11 - 64
def bspTop : BitVec 32 := 1#32 <<< 24
def bspMask : BitVec 64 := 0xFFFFFF#64

/-- `CTZ((u32)t)`. -/
def ctz32 (v : BitVec 32) : Option Nat := (List.range 32).find? fun i => v.getLsbD i

/-- Access to the 32-bit values of a buffer in some memory. -/
structure Buf (M : Type) where
  rd : M → Nat → Option (BitVec 32)
  wr : M → Nat → BitVec 32 → Option M

/-- `buf[j]+= (a*bsp_top)|p; j+=POPC(p)`. -/
def fill1 {M} (B : Buf M) (a : BitVec 32) (p : BitVec 32) (m : M) (j : Nat) : Option (M × Nat) :=
  (B.rd m j).bind fun v => (B.wr m j (v + ((a * bspTop) ||| p))).map fun m => (m, j + POPC (p.setWidth 64))

/-- `bsp_fill`: 138-148; `k` words left.  `p=u` for the last 16 bits. -/
def bspFill {M} (B : Buf M) (x : Nat → Word) : Nat → Nat → M → Nat → Option (M × Nat)
  | 0, _, m, j => some (m, j)
  | k + 1, i, m, j =>
    (fill1 B 2#32 ((x i &&& bspMask).setWidth 32) m j).bind fun (m, j) =>
    (fill1 B 3#32 (((x i >>> 24) &&& bspMask).setWidth 32) m j).bind fun (m, j) =>
    (fill1 B 3#32 ((x i >>> 24 >>> 24).setWidth 32) m j).bind fun (m, j) =>
    bspFill B x k (i + 1) m j

/-- `BSP_WRITE`, 149-155: `k` values left; `put` stores a result at `j` and does `CLEAR`. -/
def bspWrite {M} (B : Buf M) (put : M → Nat → Nat → Option M) : Nat → Nat → Word → M → Option M
  | 0, _, _, m => some m
  | k + 1, j, t, m =>
    (B.rd m j).bind fun v =>
    let t := t + v.setWidth 64
    (ctz32 (t.setWidth 32)).bind fun c =>
    (put m j (8 * (t >>> 24).toNat + c)).bind fun m => bspWrite B put k (j + 1) (t &&& (t - 1#64)) m

/-- `t=((u64)OFF<<21)-2*bsp_top`. -/
def bspStart (off : Nat) : Word := (BitVec.ofNat 64 off <<< 21) - 0x2000000#64

/-- 32-bit memory from `o` on. -/
def buf32 (o : Nat) : Buf (List (BitVec 32)) := ⟨fun m j => m[o + j]?, fun m j v => wr m (o + j) v⟩

/-- 16-bit memory as 32-bit values (little endian). -/
def buf16 : Buf (List (BitVec 16)) where
  rd m j := (m[2 * j]?).bind fun a => (m[2 * j + 1]?).map fun b => b ++ a
  wr m j v := (wr m (2 * j) (v.setWidth 16)).bind fun m => wr m (2 * j + 1) (v.extractLsb' 16 16)

/-- `for (usz j=0; j<sum; j++) dst[j]=0;`. -/
def clear {M} (B : Buf M) : Nat → Nat → M → Option M
  | 0, _, m => some m
  | k + 1, j, m => (B.wr m j 0#32).bind fun m => clear B k (j + 1) m

/-- `bsp_block_u32`, 156-160, with `dst = m + o`. -/
def bspBlock32 (x : Nat → Word) (m : List (BitVec 32)) (o len sum off : Nat) : Option (List (BitVec 32)) :=
  (clear (buf32 o) sum 0 m).bind fun m =>
  (bspFill (buf32 o) x ((len + 63) / 64) 0 m 0).bind fun (m, _) =>
  bspWrite (buf32 o) (fun m j v => wr m (o + j) (BitVec.ofNat 32 v)) sum 0 (bspStart off) m

/-- Two memories: the buffer and the result from `o` on. -/
def bufPair : Buf (List (BitVec 32) × List (BitVec 16)) where
  rd m j := m.1[j]?
  wr m j v := (wr m.1 j v).map fun b => (b, m.2)

/-- The loop of `bsp_u16`, 166-172, at most `fuel` times; `dst` is at `p`. -/
def bspBlocks (x : Nat → Word) (len : Nat) : Nat → Nat → Nat → List (BitVec 32) × List (BitVec 16) → Option (List (BitVec 16))
  | 0, i, _, m => if i < len then none else some m.2
  | fuel + 1, i, p, m =>
    if i < len then
      let b := if bspMax > len - i then len - i else bspMax
      (bspFill bufPair (fun k => x (i / 64 + k)) ((b + 63) / 64) 0 m 0).bind fun (m, bs) =>
      (bspWrite bufPair (fun m j v => (wr m.2 (p + j) (BitVec.ofNat 16 v)).bind fun d => (wr m.1 j 0#32).map fun c => (c, d))
        bs 0 (bspStart i) m).bind fun m =>
      (wr m.1 bs 0#32).bind fun c => bspBlocks x len fuel (i + b) (p + bs) (c, m.2)
    else some m.2

/-- `bsp_u16`, 161-174; `junk` is the temporary memory. -/
def bspU16 (x : Nat → Word) (m : List (BitVec 16)) (len sum : Nat) (junk : Nat → BitVec 32) : Option (List (BitVec 16)) :=
  let bufsize := if bspMax < sum then bspMax else sum
  (clear (buf32 0) bufsize 0 ((List.range (bufsize + 1)).map junk)).bind fun buf =>
  bspBlocks x len (len / bspMax + 1) 0 0 (buf, m)

/-- `where_block_u16`, 177-193. -/
def whereBlock (x : Nat → Word) (m : List (BitVec 16)) (len sum : Nat) : Option (List (BitVec 16)) :=
  if sum ≥ len / 4 + len / 8 then whereDense (BitVec.ofNat 16) x m 0 len 0
  else if sum ≥ len / 128 then
    (clear buf16 sum 0 m).bind fun m =>
    (bspFill buf16 x ((len + 63) / 64) 0 m 0).bind fun (m, _) =>
    bspWrite buf16 (fun m j v => wr m j (BitVec.ofNat 16 v)) sum 0 (bspStart 0) m
  else sparse (BitVec.ofNat 16) x sum ((len + 63) / 64) 0 m 0

/-! ## `where`, 252-316 -/

/-- The result, by element type. -/
inductive Ints
  | i8 (xs : List (BitVec 8))
  | i16 (xs : List (BitVec 16))
  | i32 (xs : List (BitVec 32))
  | f64 (xs : List Nat)

/-- The numbers in a result. -/
def Ints.elems : Ints → List Int
  | .i8 xs => xs.map (·.toInt)
  | .i16 xs => xs.map (·.toInt)
  | .i32 xs => xs.map (·.toInt)
  | .f64 xs => xs.map Int.ofNat

/-- Fresh memory for `n` elements. -/
def fresh {α} (junk : Nat → α) (n : Nat) : List α := (List.range n).map junk

/-- The loop of the 32-bit case, 275-298; `rq` is at `p`. -/
def where32 (x : Nat → Word) (xia s : Nat) : Nat → Nat → List (BitVec 32) → Nat → Option (List (BitVec 32))
  | 0, i, m, _ => if i < xia then none else some m
  | fuel + 1, i, m, p =>
    if i < xia then
      let last := bspMax > xia - i
      let b := if last then xia - i else bspMax
      let xp := fun k => x (i / 64 + k)
      let bs := if last then s - p else bit_sum xp b
      (if bs ≥ b / 2 then whereDense (BitVec.ofNat 32) xp m p b i
        else if bs ≥ b / 256 then bspBlock32 xp m p b bs i
        else sparse (BitVec.ofNat 32) x (p + bs) ((b + 63) / 64) (i / 64) m p).bind fun m =>
      where32 x xia s fuel (i + b) m (p + bs)
    else some m

/-- `for (j…) rp[j] = i+buf[j];` in 32 bits, `k` values left. -/
def addAll (i : Nat) (buf : List (BitVec 16)) (p : Nat) : Nat → Nat → List Nat → Option (List Nat)
  | 0, _, m => some m
  | k + 1, j, m => (buf[j]?).bind fun v => (wr m (p + j) ((i + v.toNat) % 4294967296)).bind fun m => addAll i buf p k (j + 1) m

/-- The loop of the last case, 304-311. -/
def whereF64 (x : Nat → Word) (xia s : Nat) : Nat → Nat → List (BitVec 16) → List Nat → Nat → Option (List Nat)
  | 0, i, _, m, _ => if i < xia then none else some m
  | fuel + 1, i, buf, m, p =>
    if i < xia then
      let last := bspMax > xia - i
      let b := if last then xia - i else bspMax
      let xp := fun k => x (i / 64 + k)
      let bs := if last then s - p else bit_sum xp b
      (whereBlock xp buf b bs).bind fun buf => (addAll i buf p bs 0 m).bind fun m => whereF64 x xia s fuel (i + b) buf m (p + bs)
    else some m

/-- Line 255: the bits after the end are cleared. -/
def trim (x : Nat → Word) (n : Nat) : Nat → Word := fun k =>
  if n % 64 ≠ 0 ∧ k = n / 64 then x k &&& ((1#64 <<< (n % 64)) - 1#64) else x k

/-- `where(x, xia, s)`; `s` is the number of ones, not 0.  The result has `s` elements, and room for one more
where `m_tyarrvO` asks for it; `junk` is what fresh memory contains. -/
def where_ (x : Nat → Word) (xia s : Nat) (junk : Nat → Word) : Option Ints :=
  let x := trim x xia
  if xia ≤ 128 then
    (sparse (BitVec.ofNat 8) x s ((xia + 63) / 64) 0 (fresh (fun i => (junk i).setWidth 8) s) 0).map .i8
  else if xia ≤ 32768 then
    if s ≥ xia / 4 + xia / 8 then
      (whereDense (BitVec.ofNat 16) x (fresh (fun i => (junk i).setWidth 16) (s + 1)) 0 xia 0).map fun m => .i16 (m.take s)
    else
      let m := fresh (fun i => (junk i).setWidth 16) s
      if s ≥ xia / 128 then (bspU16 x m xia s (fun i => (junk i).setWidth 32)).map .i16
      else (sparse (BitVec.ofNat 16) x s ((xia + 63) / 64) 0 m 0).map .i16
  else if xia ≤ 2147483648 then
    (where32 x xia s (xia / bspMax + 1) 0 (fresh (fun i => (junk i).setWidth 32) (s + 1)) 0).map fun m => .i32 (m.take s)
  else
    (whereF64 x xia s (xia / bspMax + 1) 0 (fresh (fun i => (junk i).setWidth 16) bspMax) (fresh (fun i => (junk i).toNat) s) 0).map .f64

end Verif.Slash
