import Verif.BitFn.Spec
import Verif.Squeeze.Model
import Verif.Bits.Basic
/-!
# `•bit`: model

`src/builtins/bit.c` 26-377 without Singeli.

Simplifications: 𝕗 is given as the widths that `o2s` reads from it (natural numbers below 2⋆32) and the characters after
them; which of several messages an error has is not modelled; a slice is the array of its elements; whether the argument
can be reused (`reusable`, not a slice) and whether its shape object is shared are arguments of the functions.  `usz` is
32 bits.  Memory is a sequence of 64-bit words, and x86 is little endian, so an `u8*` sees the lowest byte of a word first.
-/
namespace Verif.BitFn
open Verif.Squeeze (Val El Data conv)
open Verif.Bits (Word bitF)
open Verif.Rotate (prod)

abbrev Mem := Nat → Word

/-- Result, error, or behaviour that C leaves undefined. -/
inductive Out (α : Type)
  | ok (a : α)
  | err
  | ub

/-- An array: its shape and its elements. -/
structure Arr where
  sh : List Nat
  data : Data

/-- `elChr`, `src/h.h`. -/
def isChr : El → Bool
  | .c8 | .c16 | .c32 => true
  | _ => false

/-! ## Memory -/

/-- The word with the given bits. -/
def word (f : Nat → Bool) : Word := (BitVec.ofBoolListLE ((List.range 64).map f)).setWidth 64

/-- The memory of elements of `w` bits; past them it holds anything. -/
def place {w : Nat} (xs : List (BitVec w)) (tail : Mem) : Mem := fun i => word fun j =>
  match xs[(64*i+j)/w]? with
  | some v => v.getLsbD ((64*i+j)%w)
  | none => (tail i).getLsbD j

/-- The memory of an array, `tyany_ptr(x)`. -/
def memOf (tail : Mem) : Data → Mem
  | .bit xs => place (xs.map BitVec.ofBool) tail
  | .i8 xs => place xs tail
  | .i16 xs => place xs tail
  | .i32 xs => place xs tail
  | .f64 xs => place xs tail
  | .c8 xs => place xs tail
  | .c16 xs => place xs tail
  | .c32 xs => place xs tail
  | .B _ => tail

/-- `((uW*)m)[i]`. -/
def rd (w : Nat) (m : Mem) (i : Nat) : BitVec w := (m (w*i/64) >>> (w*i%64)).setWidth w

/-- `m[i] = v` for words. -/
def put (m : Mem) (i : Nat) (v : Word) : Mem := fun k => if k = i then v else m k

/-- `((uW*)m)[i] = v`. -/
def wr (w : Nat) (m : Mem) (i : Nat) (v : BitVec w) : Mem :=
  put m (w*i/64) ((m (w*i/64) &&& ~~~((BitVec.allOnes w).setWidth 64 <<< (w*i%64))) ||| (v.setWidth 64 <<< (w*i%64)))

/-- The first `ia` elements of memory with element type `t`. -/
def load (t : El) (m : Mem) (ia : Nat) : Data :=
  match t with
  | .bit => .bit ((List.range ia).map (bitF m))
  | .i8 => .i8 ((List.range ia).map (rd 8 m))
  | .i16 => .i16 ((List.range ia).map (rd 16 m))
  | .i32 => .i32 ((List.range ia).map (rd 32 m))
  | .f64 => .f64 ((List.range ia).map (rd 64 m))
  | .c8 => .c8 ((List.range ia).map (rd 8 m))
  | .c16 => .c16 ((List.range ia).map (rd 16 m))
  | .c32 => .c32 ((List.range ia).map (rd 32 m))
  | .B => .B []

/-- `for (i = 0; i < n; i++) m = f(i, m)`. -/
def loop (f : Nat → Mem → Mem) : Nat → Mem → Mem
  | 0, m => m
  | n+1, m => f n (loop f n m)

/-- The same where a step can be undefined. -/
def loopU (f : Nat → Mem → Option Mem) : Nat → Mem → Option Mem
  | 0, m => some m
  | n+1, m => (loopU f n m).bind (f n)

/-! ## Types and shapes -/

/-- `CastType`, bit.c 26. -/
structure CT where
  s : Nat
  c : Bool

/-- `getCastType`, bit.c 30-51; `val` is the element type of the argument when there is one. -/
def getCastType (e : Arg) (val : Option El) : Option CT :=
  match e with
  | .wid s =>
    if s ≠ 1 ∧ s ≠ 8 ∧ s ≠ 16 ∧ s ≠ 32 ∧ s ≠ 64 then none
    else some ⟨s, match val with | some t => isChr t | none => false⟩
  | .pair s t =>
    if t = 0x63 then if s ≠ 8 ∧ s ≠ 16 ∧ s ≠ 32 then none else some ⟨s, true⟩
    else if t = 0x69 then if s ≠ 8 ∧ s ≠ 16 ∧ s ≠ 32 then none else some ⟨s, false⟩
    else if t = 0x75 then if s ≠ 1 then none else some ⟨s, false⟩
    else if t = 0x66 then if s ≠ 64 then none else some ⟨s, false⟩
    else none

/-- `typeOfCast`, bit.c 70-78, and the type that `convert` (52-60) and `copy` (61-69) give. -/
def elOf (t : CT) : Option El :=
  if t.s = 1 then some .bit
  else if t.s = 8 then some (if t.c then .c8 else .i8)
  else if t.s = 16 then some (if t.c then .c16 else .i16)
  else if t.s = 32 then some (if t.c then .c32 else .i32)
  else if t.s = 64 then some .f64
  else none

/-- `shProd(sh, 0, e)` in `usz`, `src/core/stuff.h` 175-179. -/
def shProd (sh : List Nat) : Nat := sh.foldl (fun r d => r * d % 2^32) 1

/-- A result: element type, shape, number of elements, bits that were allocated for them, memory. -/
structure Res where
  el : El
  sh : List Nat
  ia : Nat
  cap : Nat
  mem : Mem

/-- Its elements. -/
def Res.data (r : Res) : Data := load r.el r.mem r.ia

/-- `set_bit_result`, bit.c 79-100: `old` is the shape object of the result; when it is shared a new one is made from `sh`,
otherwise `sh` is that same object and is written to. -/
def setResult (rt : El) (rr rl : Nat) (sh : List Nat) (shared : Bool) (cap : Nat) (m : Mem) : Res :=
  if rr ≤ 1 then ⟨rt, [rl], rl, cap, m⟩
  else
    let rsh := if shared then sh.take (rr-1) ++ [rl] else sh.set (rr-1) rl
    ⟨rt, rsh, rl * shProd (rsh.take (rr-1)) % 2^32, cap, m⟩

/-! ## Cast -/

/-- `bitcast_impl`, bit.c 102-156: `fresh` when the argument cannot be reused; `tail'` is the rest of the memory of a copy. -/
def cast (bad : BitVec 64 → BitVec 32) (el0 el1 : Arg) (x : Arr) (fresh shared : Bool) (tail tail' : Mem) : Out Res :=
  let xr := x.sh.length
  if xr < 1 then .err else
  match getCastType el0 (some x.data.ty), getCastType el1 none with
  | some xct, some rct =>
    let s := xct.s * x.sh.getD (xr-1) 0
    let rl := s / rct.s
    if rl * rct.s ≠ s then .err
    else if rl ≥ 2^32-1 then .err
    else
      match elOf xct, elOf rct with
      | some xt, some rt =>
        match conv bad xt x.data with
        | none => .ub
        | some d =>
          let m :=
            if fresh && (decide (rt = .bit) || decide (xt = .bit)) then
              match conv bad xt d with
              | some d2 => memOf tail' d2
              | none => memOf tail' d
            else memOf tail d
          .ok (setResult rt xr rl x.sh shared (width xt * prod x.sh) m)
      | _, _ => .err
  | _, _ => .err

/-- `bitcast_c1`, bit.c 158-162: 𝕗 is a list of two. -/
def castC1 (bad : BitVec 64 → BitVec 32) (f : List Arg) (x : Arr) (fresh shared : Bool) (tail tail' : Mem) : Out Res :=
  match f with
  | [a, b] => cast bad a b x fresh shared tail tail'
  | _ => .err

/-- `bitcast_im`, bit.c 163-167. -/
def castIm (bad : BitVec 64 → BitVec 32) (f : List Arg) (x : Arr) (fresh shared : Bool) (tail tail' : Mem) : Out Res :=
  match f with
  | [a, b] => cast bad b a x fresh shared tail tail'
  | _ => .err

/-! ## Widths of the other functions -/

/-- `req2`, bit.c 169-173, in `usz`. -/
def req2 (s : Nat) : Bool :=
  let top := 1#32 <<< 31
  (top ||| BitVec.ofNat 32 s) &&& (BitVec.ofNat 32 s - 1#32) == 0#32

/-- Trailing zeroes, looking at most `k` bits far. -/
def ctzN : Nat → Nat → Nat
  | 0, _ => 0
  | k+1, s => if s % 2 = 1 then 0 else ctzN k (s/2) + 1

/-- `CTZ`. -/
def ctz (s : Nat) : Nat := ctzN 32 s

/-- The widths in 𝕗, at most `n` of them, the last one repeated: bit.c 184-196 and 254-266. -/
def widths (n : Nat) (f : List Nat) : Option (List Nat) :=
  if f.length < 1 ∨ f.length > n then none
  else if f.all req2 then some (f ++ List.replicate (n - f.length) (f.getD (f.length-1) 0))
  else none

/-- `IA(x) << k` in `usz`. -/
def shl32 (ia k : Nat) : Nat := (BitVec.ofNat 32 ia <<< k).toNat

/-! ## Functions of one argument -/

/-- The last word of `op_not`: only the bits below `n` are changed. -/
def lastWord (n : Nat) (r v : Word) : Word := r ^^^ ((BitVec.allOnes 64 >>> ((2^64 - n) % 64)) &&& (r ^^^ v))

/-- `op_not`, bit.c 222-225 (`bit_negatePtr`: arithm.c 13-15): `src` is the argument as it is in memory at the moment. -/
def notLoop (src : Mem → Mem) (n : Nat) (m : Mem) : Mem :=
  let m1 := loop (fun i m => put m i (~~~ src m i)) (n/64) m
  if (2^64 - n) % 64 ≠ 0 then put m1 (n/64) (lastWord n (m1 (n/64)) (~~~ src m1 (n/64))) else m1

/-- `op_neg`, bit.c 227-243. -/
def negLoop (w : Nat) (src : Mem → Mem) (n : Nat) (m : Mem) : Mem :=
  loop (fun i m => wr w m i (-(rd w (src m) i))) (n/w) m

/-- `bitop1`, bit.c 182-248: `fresh` when the argument cannot be reused, `junk` is the memory of a new array. -/
def op1 (bad : BitVec 64 → BitVec 32) (op : Op1) (f : List Nat) (x : Arr) (fresh shared : Bool) (tail junk : Mem) : Out Res :=
  match widths 3 f with
  | some [ow, rw, xw] =>
    let xr := x.sh.length
    if xr < 1 then .err else
    let n := shl32 (prod x.sh) (ctz xw)
    let s := x.sh.getD (xr-1) 0 * 2^ctz xw
    let rl := s / 2^ctz rw
    if s &&& (ow-1) ≠ 0 ∨ rl * 2^ctz rw ≠ s then .err
    else if rl ≥ 2^32-1 then .err
    else
      match elOf ⟨xw, isChr x.data.ty⟩ with
      | none => .err
      | some xt =>
        match conv bad xt x.data with
        | none => .ub
        | some d =>
          match elOf ⟨rw, false⟩ with
          | none => .err
          | some rt =>
            let xp := memOf tail d
            let rp := if fresh then junk else xp
            let cap := if fresh then 8 * ((n+7)/8) else width xt * prod x.sh
            let src : Mem → Mem := fun m => if fresh then xp else m
            match op with
            | .not => .ok (setResult rt xr rl x.sh (fresh || shared) cap (notLoop src n rp))
            | .neg =>
              if ow = 8 ∨ ow = 16 ∨ ow = 32 ∨ ow = 64 then
                .ok (setResult rt xr rl x.sh (fresh || shared) cap (negLoop ow src n rp))
              else .err
  | _ => .err

/-! ## Functions of two arguments -/

/-- `and`, `or`, `xor` of words. -/
def Op2.word : Op2 → Word → Word → Word
  | .and, a, b => a &&& b
  | .or, a, b => a ||| b
  | .xor, a, b => a ^^^ b
  | .add, a, b => a + b
  | .sub, a, b => a - b
  | .mul, a, b => a * b

/-- `BINOP`, bit.c 337-340 and 350-356: `wp i` is the word of the other argument. -/
def binLoop (op : Op2) (wp : Nat → Word) (xp : Mem) (n : Nat) (m : Mem) : Mem :=
  let m1 := loop (fun i m => put m i (op.word (wp i) (xp i))) (n/64) m
  if (2^64 - n) % 64 ≠ 0 then put m1 (n/64) (lastWord n (m1 (n/64)) (op.word (wp (n/64)) (xp (n/64)))) else m1

/-- `a P b` for the types of `CASES`: unsigned for `add` and `sub`; for `mul` signed, where a product that does not fit in 32 or
64 bits is undefined, and one of 8 or 16 bits is computed as `int` and cut. -/
def arith (op : Op2) (w : Nat) (a b : BitVec w) : Option (BitVec w) :=
  match op with
  | .add => some (a + b)
  | .sub => some (a - b)
  | .mul =>
    if w ≥ 32 ∧ (a.toInt * b.toInt < -2^(w-1) ∨ a.toInt * b.toInt ≥ 2^(w-1)) then none
    else some (BitVec.ofInt w (a.toInt * b.toInt))
  | _ => none

/-- `CASE`, bit.c 341-344 and 357-361. -/
def arithLoop (op : Op2) (w : Nat) (wv : Nat → BitVec w) (xp : Mem) (n : Nat) (m : Mem) : Option Mem :=
  loopU (fun i m => (arith op w (wv i) (rd w xp i)).map (wr w m i)) (n/w) m

/-- `for (usz tw=ow; tw<64; tw*=2) wv|=wv<<tw;` with at most `k` steps. -/
def spread : Nat → Nat → Word → Word
  | 0, _, wv => wv
  | k+1, tw, wv => if tw < 64 then spread k (tw*2) (wv ||| wv <<< tw) else wv

/-- The computation of `bitop2`, bit.c 327-368. -/
def compute (op : Op2) (ow : Nat) (noext negw : Bool) (wp xp : Mem) (n : Nat) (junk : Mem) : Out Mem :=
  if op.bitwise then
    if noext then .ok (binLoop op wp xp n junk)
    else if ow > 64 then .err
    else .ok (binLoop op (fun _ => spread 7 ow (wp 0 &&& (BitVec.allOnes 64 >>> (64-ow)))) xp n junk)
  else if ow = 8 ∨ ow = 16 ∨ ow = 32 ∨ ow = 64 then
    let wq : Mem := if negw then fun _ => -(wp 0) else wp
    match arithLoop op ow (fun i => rd ow wq (if noext then i else 0)) xp n junk with
    | some m => .ok m
    | none => .ub
  else .err

/-- `bitop2` from bit.c 288 on: `x` is the argument that is not extended, `t` the bits of its rows. -/
def op2go (bad : BitVec 64 → BitVec 32) (op : Op2) (ow rw : Nat) (noext negw : Bool) (w : Arr) (ww : Nat) (x : Arr) (xw t : Nat)
    (wtail xtail junk : Mem) : Out Res :=
  let n := shl32 (prod x.sh) (ctz xw)
  let rl := t / 2^ctz rw
  if t &&& (ow-1) ≠ 0 ∨ rl * 2^ctz rw ≠ t then .err
  else if rl ≥ 2^32-1 then .err
  else
    match elOf ⟨ww, isChr w.data.ty⟩, elOf ⟨xw, isChr x.data.ty⟩, elOf ⟨rw, false⟩ with
    | some wt, some xt, some rt =>
      match conv bad wt w.data, conv bad xt x.data with
      | some wd, some xd =>
        match compute op ow noext negw (memOf wtail wd) (memOf xtail xd) n junk with
        | .ok m => .ok (setResult rt x.sh.length rl x.sh true (8 * ((n+7)/8)) m)
        | .err => .err
        | .ub => .ub
      | _, _ => .ub
    | _, _, _ => .err

/-- Bits of a row, bit.c 269-270: of an atom the width. -/
def rowBits (x : Arr) (w : Nat) : Nat := if x.sh.length = 0 then w else w * x.sh.getD (x.sh.length-1) 0

/-- `bitop2`, bit.c 252-373: an atom is an array without axes. -/
def op2 (bad : BitVec 64 → BitVec 32) (op : Op2) (f : List Nat) (w x : Arr) (wtail xtail junk : Mem) : Out Res :=
  match widths 4 f with
  | some [ow, rw, xw, ww] =>
    let s := rowBits w ww
    let t := rowBits x xw
    let wr := w.sh.length
    let xr := x.sh.length
    if wr = xr ∧ xr = 0 then .err
    else if wr = xr ∧ s = t then
      if x.sh.take (xr-1) ≠ w.sh.take (xr-1) then .err
      else op2go bad op ow rw true false w ww x xw t wtail xtail junk
    else if wr > 1 ∨ s ≠ ow ∨ xr = 0 then
      if xr > 1 ∨ t ≠ ow ∨ wr = 0 then .err
      else op2go bad (if op = .sub then .add else op) ow rw false (decide (op = .sub)) x xw w ww s xtail wtail junk
    else op2go bad op ow rw false false w ww x xw t wtail xtail junk
  | _ => .err

end Verif.BitFn
