import Verif.Match.Spec
import Verif.Bits.Basic
/-!
# Matching and hashing: model

`src/builtins/compare.c` 54-87 and 110-256 (without Singeli), `src/core/stuff.h` 359-377, `src/utils/calls.h` 34-36;
`src/utils/hash.h` 7-38, `src/utils/hash.c` 6-84, `src/utils/wyhash.h` 82-158 (little endian, without BMI2),
`src/builtins/search.c` 546-583.

Simplifications: a slice is the array of its elements; the reference counts and the copies made by `decompose` are
not modelled; `equal` and `eequal` recurse by a limited depth (`none` when it is used up) and give `none` if memory is
read with a type that it does not have.
-/
namespace Verif.Match
open Verif.Squeeze (Val El Data Arr feq)
open Verif.Bits (Word bitF)
open Verif.Bins (ofInt)

/-! ## Memory of an array -/

/-- The words of an array of bits (`core/numarr.h`): its elements, and past them whatever memory holds. -/
def wordsOf (xs : List Bool) (tail : Nat → Word) (i : Nat) : Word :=
  (BitVec.ofBoolListLE ((List.range 64).map fun j =>
    match xs[64*i+j]? with
    | some b => b
    | none => (tail i).getLsbD j)).setWidth 64

/-- The `n` bytes of a number, the lowest first. -/
def le {w : Nat} (n : Nat) (v : BitVec w) : List (BitVec 8) := (List.range n).map fun k => (v >>> (8*k)).setWidth 8

/-- The bytes of an array of whole bytes, as `u8*` sees them. -/
def bytesOf : Data → Option (List (BitVec 8))
  | .i8 xs => some (xs.flatMap (le 1))
  | .i16 xs => some (xs.flatMap (le 2))
  | .i32 xs => some (xs.flatMap (le 4))
  | .f64 xs => some (xs.flatMap (le 8))
  | .c8 xs => some (xs.flatMap (le 1))
  | .c16 xs => some (xs.flatMap (le 2))
  | .c32 xs => some (xs.flatMap (le 4))
  | _ => none

/-- `((T*)p)[i]` for the signed type of element type `t`. -/
def rdI (t : El) (x : Data) (i : Nat) : Option Int :=
  match t, x with
  | .i8, .i8 xs => xs[i]?.map (·.toInt)
  | .i16, .i16 xs => xs[i]?.map (·.toInt)
  | .i32, .i32 xs => xs[i]?.map (·.toInt)
  | _, _ => none

/-- `((T*)p)[i]` for the unsigned type of element type `t`. -/
def rdU (t : El) (x : Data) (i : Nat) : Option Nat :=
  match t, x with
  | .c8, .c8 xs => xs[i]?.map (·.toNat)
  | .c16, .c16 xs => xs[i]?.map (·.toNat)
  | .c32, .c32 xs => xs[i]?.map (·.toNat)
  | _, _ => none

/-- `((f64*)p)[i]`. -/
def rdF (x : Data) (i : Nat) : Option (BitVec 64) :=
  match x with
  | .f64 xs => xs[i]?
  | _ => none

/-! ## Comparison of typed arrays, compare.c 110-207 -/

/-- `for (; i<l; i++) if (!f(i)) return false; return true;` with `n` steps left. -/
def loop : Nat → Nat → (Nat → Option Bool) → Option Bool
  | 0, _, _ => some true
  | n+1, i, f => (f i).bind fun b => if b then loop n (i+1) f else some false

/-- `equal_1_1`, compare.c 128-134. -/
def equal11 (w x : Nat → Word) (l : Nat) : Bool :=
  let q := l / 64
  let r := (-(BitVec.ofNat 64 l)).toNat % 64
  (List.range q).all (fun i => w i == x i) && (r == 0 || (w q ^^^ x q) <<< r == 0)

/-- The functions of the tables: `1_1`; `1_8` … `1_f64`; `8_8`; `f64_f64`; its reflexive variant; `u8_16` …; `s8_16` …;
`s8_f64` …; `notEq`. -/
inductive Fn
  | f11 | f1 (t : El) | f88 | ff | ffR | u (s t : El) | s (s t : El) | sf (s : El) | notEq
deriving DecidableEq

/-- `a==b` or both are NaN: `floatIndistinguishable`, core/stuff.h 359-361; also compare.c 152. -/
def feqR (a b : BitVec 64) : Bool := feq a b || (Compare.nan a && Compare.nan b)

/-- compare.c 128-180: `l` elements, `d` from `matchFnData`. -/
def call (fn : Fn) (d : Nat) (w : Data) (tw : Nat → Word) (x : Data) (tx : Nat → Word) (l : Nat) : Option Bool :=
  match fn with
  | .f11 =>
    match w, x with
    | .bit ws, .bit xs => some (equal11 (wordsOf ws tw) (wordsOf xs tx) l)
    | _, _ => none
  | .f1 t =>
    let p := if d ≠ 0 then (x, tx, w) else (w, tw, x)
    match p.1 with
    | .bit bs =>
      loop l 0 fun i =>
        let b := bitF (wordsOf bs p.2.1) i
        if t = .f64 then (rdF p.2.2 i).map fun f => feq (ofInt b.toNat) f
        else (rdI t p.2.2 i).map fun v => decide ((b.toNat : Int) = v)
    | _ => none
  | .f88 =>
    (bytesOf w).bind fun bw => (bytesOf x).bind fun bx =>
      loop (l <<< d) 0 fun i => bw[i]?.bind fun a => bx[i]?.map fun b => a == b
  | .ff => loop l 0 fun i => (rdF w i).bind fun a => (rdF x i).map fun b => feq a b
  | .ffR => loop l 0 fun i => (rdF w i).bind fun a => (rdF x i).map fun b => feqR a b
  | .u s t =>
    let p := if d ≠ 0 then (x, w) else (w, x)
    loop l 0 fun i => (rdU s p.1 i).bind fun a => (rdU t p.2 i).map fun b => decide (a = b)
  | .s s t =>
    let p := if d ≠ 0 then (x, w) else (w, x)
    loop l 0 fun i => (rdI s p.1 i).bind fun a => (rdI t p.2 i).map fun b => decide (a = b)
  | .sf s =>
    let p := if d ≠ 0 then (x, w) else (w, x)
    loop l 0 fun i => (rdI s p.1 i).bind fun a => (rdF p.2 i).map fun b => feq (ofInt a) b
  | .notEq => some false

/-- `matchFnData`, compare.c 110-120. -/
def matchFnData : List Nat :=
  [0,0,0,0,0,99,99,99,
   1,0,0,0,0,99,99,99,
   1,1,1,0,0,99,99,99,
   1,1,1,2,0,99,99,99,
   1,1,1,1,0,99,99,99,
   99,99,99,99,99,0,0,0,
   99,99,99,99,99,1,1,0,
   99,99,99,99,99,1,1,2]

/-- `MAKE_TABLE`, compare.c 192-204; `matchFns` (`r` false) and `matchFnsR`. -/
def matchFns (r : Bool) : List Fn :=
  [.f11,    .f1 .i8,    .f1 .i16,    .f1 .i32,    .f1 .f64,              .notEq,      .notEq,       .notEq,
   .f1 .i8,  .f88,       .s .i8 .i16,  .s .i8 .i32,  .sf .i8,             .notEq,      .notEq,       .notEq,
   .f1 .i16, .s .i8 .i16,  .f88,       .s .i16 .i32, .sf .i16,            .notEq,      .notEq,       .notEq,
   .f1 .i32, .s .i8 .i32,  .s .i16 .i32, .f88,       .sf .i32,            .notEq,      .notEq,       .notEq,
   .f1 .f64, .sf .i8,    .sf .i16,    .sf .i32,    if r then .ffR else .ff, .notEq,      .notEq,       .notEq,
   .notEq,   .notEq,     .notEq,      .notEq,      .notEq,                .f88,        .u .c8 .c16,  .u .c8 .c32,
   .notEq,   .notEq,     .notEq,      .notEq,      .notEq,                .u .c8 .c16, .f88,         .u .c16 .c32,
   .notEq,   .notEq,     .notEq,      .notEq,      .notEq,                .u .c8 .c32, .u .c16 .c32, .f88]

/-- `MATCH_GET`, `MATCHR_GET`, `MATCH_CALL`, utils/calls.h 34-36. -/
def matchTyped (r : Bool) (w : Data) (tw : Nat → Word) (x : Data) (tx : Nat → Word) (l : Nat) : Option Bool :=
  let i := w.ty.rank * 8 + x.ty.rank
  (matchFns r)[i]?.bind fun fn => matchFnData[i]?.bind fun d => call fn d w tw x tx l

/-! ## `equal` and `eequal`, compare.c 54-87, 212-256 and core/stuff.h 370-377 -/

/-- First component of `decompose`, core/derv.c 91-94. -/
def Der.kind : Der → Nat
  | .md1D => 4 | .md2D => 5 | .fork => 3 | .atop => 2

/-- `decompose`, core/derv.c 91-94: the kind as a number, then the parts in the order of `parts`.  Anything else is
`byRef` or gives a kind of at most 1. -/
def Obj.decompose : Obj → Option (Der × List Val)
  | .der t ps => some (t, .num (ofInt t.kind) :: ps)
  | _ => none

/-- `decomposeEqual` with `partEqual` the given function, compare.c 54-76. -/
def decomposeEqual (part : Val → Val → Option Bool) (w x : Obj) : Option Bool :=
  match w.decompose, x.decompose with
  | some (s, wd), some (t, xd) =>
    if s ≠ t then some false
    else if t.kind ≤ 1 then some false
    else if wd.length ≠ xd.length then some false
    else loop wd.length 0 fun i => wd[i]?.bind fun a => xd[i]?.bind fun b => part a b
  | _, _ => some false

/-- `eqShPart`, core/stuff.h 185-188. -/
def eqShPart (w x : List Nat) (len : Nat) : Option Bool :=
  loop len 0 fun i => w[i]?.bind fun a => x[i]?.map fun b => a == b

/-- `MATCH_IMPL` from the test of the ranks on, compare.c 233-246; `part` is `equal` or `eequal`. -/
def matchArr (r : Bool) (part : Val → Val → Option Bool) (wsh : List Nat) (wd : Data) (tw : Nat → Word)
    (xsh : List Nat) (xd : Data) (tx : Nat → Word) : Option Bool :=
  if wsh.length ≠ xsh.length then some false
  else
    let ia := xd.elems.length
    (if wsh.length = 1 then some (ia == wd.elems.length) else eqShPart wsh xsh wsh.length).bind fun sh =>
      if !sh then some false
      else if ia = 0 then some true
      else if wd.ty ≠ .B ∧ xd.ty ≠ .B then matchTyped r wd tw xd tx ia
      else loop ia 0 fun i => wd.elems[i]?.bind fun a => xd.elems[i]?.bind fun b => part a b

/-- `equal` (`r` false) and `eequal` (`r` true), compare.c 248-256, with `atomEqual` (core/stuff.h 372-377) and
`atomEEqual` (compare.c 82-86).  `again` is the recursive call.  Two values are the same word iff they are the same
`Val`. -/
def equalStep (h : Heap) (again : Bool → Val → Val → Option Bool) (r : Bool) (w x : Val) : Option Bool :=
  if r && decide (w = x) then some true
  else match w, x with
  | .num f, .num g => some (if r then feqR f g else feq f g)
  | .num _, _ => some false
  | .chr c, .chr d => some (c == d)
  | .chr _, _ => some false
  | .other i, .other j =>
    match h i, h j with
    | .arr wsh a tw, .arr xsh b tx => matchArr r (again r) wsh a.data tw xsh b.data tx
    | .arr _ _ _, _ => some false
    | _, .arr _ _ _ => some false
    | wo, xo => if i = j then some true else decomposeEqual (again true) wo xo
  | .other _, _ => some false

/-- The same with at most `n` levels. -/
def equalN (h : Heap) : Nat → Bool → Val → Val → Option Bool
  | 0, _, _, _ => none
  | n+1, r, w, x => equalStep h (equalN h n) r w x

/-! ## `wyhash`, wyhash.h 82-158 -/

/-- `_wymum`: the two halves of the product. -/
def mum (a b : Word) : Word × Word :=
  (BitVec.ofNat 64 (a.toNat * b.toNat), BitVec.ofNat 64 (a.toNat * b.toNat / 2^64))

/-- `_wymix`, wyhash.h 82. -/
def mix (a b : Word) : Word := let p := mum a b; p.1 ^^^ p.2

/-- `_wyr8`, wyhash.h 97. -/
def rd8 (p : Nat → BitVec 8) (i : Nat) : Word :=
  (List.range 8).foldl (fun v k => v ||| ((p (i+k)).setWidth 64 <<< (8*k))) 0#64

/-- The loop of 48 bytes, wyhash.h 138-145: the position, the bytes left and the three seeds. -/
def wy48 (p : Nat → BitVec 8) (s : Nat → Word) : Nat → Nat → Nat → Word → Word → Word → Nat × Nat × Word
  | 0, at', i, seed, s1, s2 => (at', i, seed ^^^ (s1 ^^^ s2))
  | n+1, at', i, seed, s1, s2 =>
    let seed' := mix (rd8 p at' ^^^ s 1) (rd8 p (at'+8) ^^^ seed)
    let s1' := mix (rd8 p (at'+16) ^^^ s 2) (rd8 p (at'+24) ^^^ s1)
    let s2' := mix (rd8 p (at'+32) ^^^ s 3) (rd8 p (at'+40) ^^^ s2)
    if i - 48 > 48 then wy48 p s n (at'+48) (i-48) seed' s1' s2' else (at'+48, i-48, seed' ^^^ (s1' ^^^ s2'))

/-- The loop of 16 bytes, wyhash.h 147. -/
def wy16 (p : Nat → BitVec 8) (s : Nat → Word) : Nat → Nat → Nat → Word → Nat × Nat × Word
  | 0, at', i, seed => (at', i, seed)
  | n+1, at', i, seed =>
    if i > 16 then wy16 p s n (at'+16) (i-16) (mix (rd8 p at' ^^^ s 1) (rd8 p (at'+8) ^^^ seed)) else (at', i, seed)

/-- `wyhash`, wyhash.h 122-152.  `p` is memory from `key` on, also past `len`. -/
def wyhash (p : Nat → BitVec 8) (len : Nat) (seed : Word) (s : Nat → Word) : Word :=
  let seed := seed ^^^ s 0
  let r : Word × Word × Word :=
    if len ≤ 16 then
      if len = 16 then (rd8 p 0, rd8 p 8, seed)
      else
        let a := if len ≥ 8 then rd8 p 0 else 0#64
        let q := if len ≥ 8 then 8 else 0
        (a, rd8 p q &&& ((1#64 <<< ((8*len) % 64)) - 1#64), seed)
    else
      let t := if len > 48 then wy48 p s len 0 len seed seed seed else (0, len, seed)
      let t := wy16 p s len t.1 t.2.1 t.2.2
      (rd8 p (t.1 + t.2.1 - 16), rd8 p (t.1 + t.2.1 - 8), t.2.2)
  mix (s 1 ^^^ BitVec.ofNat 64 len) (mix (r.1 ^^^ s 1) (r.2.1 ^^^ r.2.2))

/-- `wyhash64`, wyhash.h 158. -/
def wyhash64 (a b : Word) : Word :=
  let p := mum (a ^^^ 0xa0761d6478bd642f#64) (b ^^^ 0xe7037ed1a0b428db#64)
  mix (p.1 ^^^ 0xa0761d6478bd642f#64) (p.2 ^^^ 0xe7037ed1a0b428db#64)

/-- `_wyp`, wyhash.h 155. -/
def wyp : Nat → Word
  | 0 => 0xa0761d6478bd642f | 1 => 0xe7037ed1a0b428db | 2 => 0x8ebc6af09c88c6e3 | _ => 0x589965cc75374cc3

/-! ## `bqn_hash` -/

/-- `x.f+0` of a double that is not NaN. -/
def plusZero (f : BitVec 64) : BitVec 64 := if f = 0x8000000000000000 then 0 else f

/-- `normalizeFloat`, hash.h 14-16; `0.0/0.0` is a constant. -/
def normalizeFloat (f : BitVec 64) : BitVec 64 := if Compare.nan f then 0x7FF8000000000000 else plusZero f

/-- `asNormalized` with `nanBad` false, search.c 546-577: nothing to do up to the first -0 or NaN. -/
def asNormalized : List (BitVec 64) → List (BitVec 64)
  | [] => []
  | f :: fs => if f = 0x8000000000000000 ∨ Compare.nan f = true then (f :: fs).map normalizeFloat else f :: asNormalized fs

/-- `bcl`, hash.h 7-12, on the words of an array of bits of length `ia`. -/
def bcl (w : Nat → Word) (ia : Nat) (i : Nat) : Word :=
  if ia % 64 ≠ 0 ∧ i = ia / 64 then w i &&& ((1#64 <<< (ia % 64)) - 1#64) else w i

/-- Memory that starts with given bytes. -/
def memOf (bs : List (BitVec 8)) (past : Nat → BitVec 8) (i : Nat) : BitVec 8 := bs[i]?.getD (past i)

/-- Memory of words as bytes. -/
def memWords (w : Nat → Word) (i : Nat) : BitVec 8 := (w (i/8) >>> (8*(i%8))).setWidth 8

/-- The parts of an `Option` list, if all are there. -/
def allSome {α} : List (Option α) → Option (List α)
  | [] => some []
  | none :: _ => none
  | some a :: xs => (allSome xs).map (a :: ·)

/-- The numbers of the types `t_fork`, `t_atop`, `t_md1D`, `t_md2D`, `src/h.h` 252. -/
def Der.ty : Der → Nat
  | .fork => 8 | .atop => 9 | .md1D => 10 | .md2D => 11

/-- What is unknown or arbitrary: the secret, the word of a function, memory past arrays and past
shapes, and what a conversion of a
double out of range gives. -/
structure Env where
  secret : Nat → Word
  ref : Nat → Word
  past : Nat → Nat → BitVec 8
  pastSh : Nat → Nat → BitVec 8
  bad : BitVec 64 → BitVec 32

/-- The order in which hash.c 55-84 puts the hashes of the parts, after a 0 if there are two. -/
def hashbuf : Der → List Word → Option (List Word)
  | .md1D, [f, m] => some [0, f, m]
  | .md2D, [f, m, g] => some [g, f, m]
  | .fork, [f, g, h] => some [f, g, h]
  | .atop, [g, h] => some [0, g, h]
  | _, _ => none

/-- The data that is hashed, hash.c 19-45: memory and the number of bytes.  Sizes do not wrap, since the allocators
limit arrays to less than 2^31 bytes (`CHECK_IA`).  The words of a new array of bits also end with arbitrary bits; `tail`
stands for them too. -/
def hashData (E : Env) (i : Nat) (tail : Nat → Word) (elem : Val → Option Word) (d : Data) : Option ((Nat → BitVec 8) × Nat) :=
  let xia := d.elems.length
  match d with
  | .bit xs => some (memWords (bcl (wordsOf xs tail) xia), (xia + 7) / 8)
  | .i8 xs => some (memOf (xs.flatMap (le 1)) (E.past i), xia)
  | .i16 xs => some (memOf (xs.flatMap (le 2)) (E.past i), xia*2)
  | .i32 xs => some (memOf (xs.flatMap (le 4)) (E.past i), xia*4)
  | .f64 xs => some (memOf ((asNormalized xs).flatMap (le 8)) (E.past i), xia*8)
  | .c8 xs => some (memOf (xs.flatMap (le 1)) (E.past i), xia)
  | .c16 xs => some (memOf (xs.flatMap (le 2)) (E.past i), xia*2)
  | .c32 xs => some (memOf (xs.flatMap (le 4)) (E.past i), xia*4)
  | .B xs => (allSome (xs.map elem)).map fun hs => (memOf (hs.flatMap (le 8)) (E.past i), xia*8)

/-- `bqn_hashObj` of an array, hash.c 7-49. -/
def hashArr (E : Env) (i : Nat) (elem : Val → Option Word) (sh : List Nat) (a : Arr) (tail : Nat → Word) : Option Word :=
  let xia := a.data.elems.length
  if xia = 0 then some (~~~ (E.secret 3))
  else (Squeeze.squeezeAny E.bad a).bind fun x =>
    let xe := BitVec.ofNat 64 x.data.ty.rank
    let shHash := if sh.length ≤ 1 then wyhash64 (BitVec.ofNat 64 xia) xe
      else wyhash (memOf ((sh.map (BitVec.ofNat 32)).flatMap (le 4)) (E.pastSh i)) (sh.length * 4) xe E.secret
    (hashData E i tail elem x.data).map fun m => wyhash m.1 m.2 shHash E.secret

/-- `bqn_hash` and `bqn_hashObj`, hash.h 18-33 and hash.c 6-84. -/
def hashN (E : Env) (h : Heap) : Nat → Val → Option Word
  | 0, _ => none
  | n+1, x =>
    match x with
    | .num f =>
      some (wyhash64 (E.secret 0)
        (if !Compare.nan f then plusZero f else if f <<< 1 = 0xFFF0000000000000 then E.secret 1 else f))
    | .chr c => some (wyhash64 (E.secret 0) (0x7FF1000000000000 ||| c.setWidth 64))
    | .other i =>
      match h i with
      | .arr sh a tail => hashArr E i (hashN E h n) sh a tail
      | .single => some (wyhash64 (E.secret 0) (E.ref i))
      | .der t ps =>
        (allSome (ps.map (hashN E h n))).bind fun hs => (hashbuf t hs).map fun b =>
          wyhash (memOf (b.flatMap (le 8)) (E.past i)) 24 (BitVec.ofNat 64 t.ty) E.secret

end Verif.Match
