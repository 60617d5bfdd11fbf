import Verif.Pervade.EachSpec
import Verif.BitFn.Model
/-!
# Comparisons and Each: model

`src/builtins/cmp.c` without Singeli, `eachd_fn` of `src/utils/each.c` 8-65, `leading_axis_arith` of
`src/builtins/cells.c` 203-230.

Simplifications: a slice is the array of its elements; fills, squeezing of results (C12), reuse of arguments and reference
counts are not modelled; which message an error has is not modelled.  The recursion of comparisons is limited by a number;
`deep` when it is used up.  Memory is as in `Verif.BitFn.Model`: 64-bit words with anything after the elements.
-/
namespace Verif.Pervade
open Verif.Bins (ofInt)
open Verif.Rotate (prod)
open Verif.Bits (Word bitF)
open Verif.Squeeze (Val El Data conv feq toI32 toIw)
open Verif.BitFn (Mem memOf rd put wr loop shProd isChr)

/-- Result, error, undefined behaviour, recursion too deep. -/
inductive Out (α : Type)
  | ok (a : α)
  | err
  | ub
  | deep

def Out.bind {α β : Type} (o : Out α) (f : α → Out β) : Out β :=
  match o with
  | .ok a => f a
  | .err => .err
  | .ub => .ub
  | .deep => .deep

instance : Monad Out where
  pure := .ok
  bind := Out.bind

/-! ## Each -/

/-- `for (i = 0; i < n; i++) r[i] = f(i)`, after the first `i` elements. -/
def fill {m : Type → Type} [Monad m] {α : Type} (f : Nat → m α) : Nat → Nat → m (List α)
  | 0, _ => pure []
  | n+1, i => do
    let a ← f i
    let r ← fill f n (i+1)
    pure (a :: r)

/-- `eachd_fn`, each.c 8-65; `none` is the error for shapes.  `f` can have effects. -/
def eachd {m : Type → Type} [Monad m] (f : V → V → m V) (w x : V) : Option (m V) :=
  let wr := if w.isArr then w.sh.length else 0
  let w' := if w.isArr && wr == 0 then w.get 0 else w
  let xr := if x.isArr then x.sh.length else 0
  let x' := if x.isArr && xr == 0 then x.get 0 else x
  let wg := decide (wr > xr)
  let rM := if wg then wr else xr
  let rm := if wg then xr else wr
  if rM = 0 then some (do let r ← f w' x'; pure (.boxed [] [r]))
  else if rm ≠ 0 ∧ w'.sh.take rm ≠ x'.sh.take rm then none
  else
    let bo := if wg then w' else x'
    let ria := bo.els.length
    if ria = 0 then some (pure (.boxed (if rM = 1 then [0] else bo.sh) []))
    else if wr = xr then some (do let r ← fill (fun i => f (w'.get i) (x'.get i)) ria 0; pure (.boxed bo.sh r))
    else if wr = 0 then some (do let r ← fill (fun i => f w' (x'.get i)) ria 0; pure (.boxed bo.sh r))
    else if xr = 0 then some (do let r ← fill (fun i => f (w'.get i) x') ria 0; pure (.boxed bo.sh r))
    else
      let min := if wg then x'.els.length else w'.els.length
      let ext := ria / min
      if wg then
        some (do
          let r ← fill (fun i => fill (fun j => f (w'.get (i*ext+j)) (x'.get i)) ext 0) min 0
          pure (.boxed bo.sh r.flatten))
      else
        some (do
          let r ← fill (fun i => fill (fun j => f (w'.get i) (x'.get (i*ext+j))) ext 0) min 0
          pure (.boxed bo.sh r.flatten))

/-! ## Comparing typed arrays -/

/-- `a OP b` of C for integers. -/
def cInt (op : Op) (a b : Int) : Bool :=
  match op with
  | .le => decide (a ≤ b)
  | .lt => decide (a < b)
  | .ge => decide (a ≥ b)
  | .gt => decide (a > b)
  | .eq => decide (a = b)
  | .ne => !decide (a = b)

/-- `a OP b` of C for doubles. -/
def cDbl (op : Op) (a b : BitVec 64) : Bool :=
  let ord := !Compare.nan a && !Compare.nan b
  match op with
  | .le => ord && decide (Compare.key a ≤ Compare.key b)
  | .lt => ord && decide (Compare.key a < Compare.key b)
  | .ge => ord && decide (Compare.key a ≥ Compare.key b)
  | .gt => ord && decide (Compare.key a > Compare.key b)
  | .eq => feq a b
  | .ne => !feq a b

/-- `c = 0; for (k = 0; k < 8; k++) c|= f(k)<<k;` -/
def byte (f : Nat → Bool) : BitVec 8 := (List.range 8).foldl (fun c k => c ||| ((BitVec.ofBool (f k)).setWidth 8 <<< k)) 0#8

/-- `BASE_CMP_LOOP`, cmp.c 59-67. -/
def cmpLoop (c : Nat → Bool) (l : Nat) (r : Mem) : Mem := loop (fun j r => wr 8 r j (byte fun k => c (j*8+k))) ((l+7)/8) r

/-- `BX`, cmp.c 79-82 and 114-119. -/
def wordOp (op : Op) (w x : Word) : Word :=
  match op with
  | .eq => ~~~w ^^^ x
  | .ne => w ^^^ x
  | .gt => w &&& ~~~x
  | .ge => w ||| ~~~x
  | .le => ~~~w ||| x
  | .lt => ~~~w &&& x

/-- The functions `base_NAA_T`, cmp.c 69-82; there are none for `≤` and `<`. -/
def fnAA (op : Op) (t : El) (w x : Mem) (l : Nat) (r : Mem) : Option Mem :=
  if op = .le ∨ op = .lt then none else
  match t with
  | .bit => some (loop (fun i r => put r i (wordOp op (w i) (x i))) ((l+63)/64) r)
  | .i8 => some (cmpLoop (fun i => cInt op (rd 8 w i).toInt (rd 8 x i).toInt) l r)
  | .i16 => some (cmpLoop (fun i => cInt op (rd 16 w i).toInt (rd 16 x i).toInt) l r)
  | .i32 | .c32 => some (cmpLoop (fun i => cInt op (rd 32 w i).toInt (rd 32 x i).toInt) l r)
  | .f64 => some (cmpLoop (fun i => cDbl op (rd 64 w i) (rd 64 x i)) l r)
  | .c8 =>
    if op = .eq ∨ op = .ne then some (cmpLoop (fun i => cInt op (rd 8 w i).toInt (rd 8 x i).toInt) l r)
    else some (cmpLoop (fun i => cInt op (rd 8 w i).toNat (rd 8 x i).toNat) l r)
  | .c16 =>
    if op = .eq ∨ op = .ne then some (cmpLoop (fun i => cInt op (rd 16 w i).toInt (rd 16 x i).toInt) l r)
    else some (cmpLoop (fun i => cInt op (rd 16 w i).toNat (rd 16 x i).toNat) l r)
  | .B => none

/-- Two atoms: `CMP_SCALAR`, `eq_atom`, `ne_atom`, cmp.c 194-213; `compare` of atoms of which one is not a number or character
fails (`compare.c` 13).  `same` is `atomEqualF`. -/
def scalar (same : Nat → Nat → Bool) (op : Op) (w x : V) : Out Bool :=
  match w, x with
  | .num f, .num g => .ok (cDbl op f g)
  | .chr c, .chr d => .ok (cInt op c.toNat d.toNat)
  | .num _, .chr _ =>
    match op with
    | .le => .ok true | .ge => .ok false | .lt => .ok true | .gt => .ok false | .eq => .ok false | .ne => .ok true
  | .chr _, .num _ =>
    match op with
    | .le => .ok false | .ge => .ok true | .lt => .ok false | .gt => .ok true | .eq => .ok false | .ne => .ok true
  | .fn i, .fn j => match op with | .eq => .ok (same i j) | .ne => .ok (!same i j) | _ => .err
  | .typed _ _, _ => .ub
  | .boxed _ _, _ => .ub
  | _, .typed _ _ => .ub
  | _, .boxed _ _ => .ub
  | _, _ => match op with | .eq => .ok false | .ne => .ok true | _ => .err

/-- `bitp_set`, core/numarr.h 27-31. -/
def bitpSet (m : Mem) (n : Nat) (v : Bool) : Mem :=
  let b := rd 8 m (n/8)
  wr 8 m (n/8) (if v then b ||| (1#8 <<< (n%8)) else b &&& ~~~(1#8 <<< (n%8)))

/-- Element `i` of memory as a value, cmp.c 86-93. -/
def elemAt (t : El) (w : Mem) (i : Nat) : V :=
  match t with
  | .bit => .num (ofInt (bitF w i).toNat)
  | .i8 => .num (ofInt (rd 8 w i).toInt)
  | .i16 => .num (ofInt (rd 16 w i).toInt)
  | .i32 => .num (ofInt (rd 32 w i).toInt)
  | .f64 => .num (rd 64 w i)
  | .c8 => .chr ((rd 8 w i).setWidth 32)
  | .c16 => .chr ((rd 16 w i).setWidth 32)
  | .c32 => .chr (rd 32 w i)
  | .B => .num 0

/-- `cmp_slow_T`, cmp.c 86-89. -/
def cmpSlow (same : Nat → Nat → Bool) (op : Op) (t : El) (w : Mem) (x : V) : Nat → Mem → Out Mem
  | 0, r => .ok r
  | l+1, r => do
    let r ← cmpSlow same op t w x l r
    let b ← scalar same op (elemAt t w l) x
    pure (bitpSet r l b)

/-- `fillBits`, cmp.c 5-7. -/
def fillBits (r : Mem) (l : Nat) (v : Bool) : Mem := loop (fun i r => put r i (if v then BitVec.allOnes 64 else 0)) ((l+63)/64) r

/-- `q_T(x)` with the value that `T xv = C(x)` then has, as a function comparing an element of memory with it:
cmp.c 101-112, `src/h.h` 490-506. -/
def scalarFn (bad : BitVec 64 → BitVec 32) (op : Op) (t : El) (w : Mem) (x : V) : Option (Nat → Bool) :=
  match t, x with
  | .i8, .num f =>
    if feq f (ofInt (toIw 8 bad f).toInt) then some fun i => cInt op (rd 8 w i).toInt (toIw 8 bad f).toInt else none
  | .i16, .num f =>
    if feq f (ofInt (toIw 16 bad f).toInt) then some fun i => cInt op (rd 16 w i).toInt (toIw 16 bad f).toInt else none
  | .i32, .num f =>
    if feq f (ofInt (toI32 bad f).toInt) then some fun i => cInt op (rd 32 w i).toInt (toI32 bad f).toInt else none
  | .f64, .num f => some fun i => cDbl op (rd 64 w i) f
  | .c8, .chr c => if c.toNat < 256 then some fun i => cInt op (rd 8 w i).toNat (c.setWidth 8).toNat else none
  | .c16, .chr c => if c.toNat < 65536 then some fun i => cInt op (rd 16 w i).toNat (c.setWidth 16).toNat else none
  | .c32, .chr c => some fun i => cInt op (rd 32 w i).toNat c.toNat
  | _, _ => none

/-- When the scalar is not one of the type: `CMP_TO_FILL` and `CMP_TO_SLOW`, cmp.c 95-98. -/
def toSlow (same : Nat → Nat → Bool) (op : Op) (t : El) (w : Mem) (x : V) (l : Nat) (r : Mem) : Out Mem :=
  match op with
  | .eq => .ok (fillBits r l false)
  | .ne => .ok (fillBits r l true)
  | _ => cmpSlow same op t w x l r

/-- The functions `base_NAS_T`, cmp.c 100-119. -/
def fnAS (same : Nat → Nat → Bool) (bad : BitVec 64 → BitVec 32) (op : Op) (t : El) (w : Mem) (x : V) (l : Nat) (r : Mem) : Out Mem :=
  match t with
  | .B => .ub
  | .bit =>
    match x with
    | .num f =>
      if feq f 0 || feq f (ofInt 1) then
        .ok (loop (fun i r => put r i (wordOp op (w i) (if f <<< 1 != 0#64 then BitVec.allOnes 64 else 0))) ((l+63)/64) r)
      else toSlow same op t w x l r
    | _ => toSlow same op t w x l r
  | t =>
    match scalarFn bad op t w x with
    | some c => .ok (cmpLoop c l r)
    | none => toSlow same op t w x l r

/-- `elNum`, `src/h.h`. -/
def isNum : El → Bool
  | .bit | .i8 | .i16 | .i32 | .f64 => true
  | _ => false

/-- `aMakeEq`, cmp.c 13-31: `none` for `el_MAX`. -/
def makeEq (bad : BitVec 64 → BitVec 32) (w x : Data) : Option (Option (Data × Data)) :=
  if (isNum w.ty && isNum x.ty) || (isChr w.ty && isChr x.ty) then
    if w.ty.rank < x.ty.rank then some ((conv bad x.ty w).map fun w => (w, x))
    else some ((conv bad w.ty x).map fun x => (w, x))
  else none

/-- The contents of memory that the program does not determine: past the elements of 𝕨 and 𝕩, and in a new array. -/
structure Env where
  wtail : Mem
  xtail : Mem
  junk : Mem

/-- The result of a comparison: an array of bits with the shape of the argument. -/
def bits (sh : List Nat) (l : Nat) (r : Mem) : V := .typed sh (.bit ((List.range l).map (bitF r)))

/-- Elements repeated, `C2(slash, m_usz(n), x)` (see C23 and C24). -/
def repEach (n : Nat) : Data → Data
  | .bit xs => .bit (xs.flatMap (List.replicate n))
  | .i8 xs => .i8 (xs.flatMap (List.replicate n))
  | .i16 xs => .i16 (xs.flatMap (List.replicate n))
  | .i32 xs => .i32 (xs.flatMap (List.replicate n))
  | .f64 xs => .f64 (xs.flatMap (List.replicate n))
  | .c8 xs => .c8 (xs.flatMap (List.replicate n))
  | .c16 xs => .c16 (xs.flatMap (List.replicate n))
  | .c32 xs => .c32 (xs.flatMap (List.replicate n))
  | .B xs => .B (xs.flatMap (List.replicate n))

/-- Elements `s` … `s+n-1`, `TI(x,slice)`. -/
def slice (s n : Nat) : Data → Data
  | .bit xs => .bit ((xs.drop s).take n)
  | .i8 xs => .i8 ((xs.drop s).take n)
  | .i16 xs => .i16 ((xs.drop s).take n)
  | .i32 xs => .i32 ((xs.drop s).take n)
  | .f64 xs => .f64 ((xs.drop s).take n)
  | .c8 xs => .c8 ((xs.drop s).take n)
  | .c16 xs => .c16 ((xs.drop s).take n)
  | .c32 xs => .c32 ((xs.drop s).take n)
  | .B xs => .B ((xs.drop s).take n)

/-- `arrTypeBitsLog`, `src/core/arrFns.h`. -/
def bitsLog : El → Nat
  | .bit => 0 | .i8 => 3 | .i16 => 4 | .i32 => 5 | .f64 => 6 | .c8 => 3 | .c16 => 4 | .c32 => 5 | .B => 6

/-- Bits of a result of a comparison; anything else cannot be appended as such. -/
def V.bits? : V → Out (List Bool)
  | .typed _ (.bit bs) => .ok bs
  | _ => .ub

/-- `leading_axis_arith`, cells.c 203-230, for comparisons (all results are bits); `mr` is the lower rank. -/
def leading (f : V → V → Out V) (wsh : List Nat) (w : Data) (xsh : List Nat) (x : Data) (mr : Nat) : Out V :=
  let cam := shProd (xsh.take mr)
  let wsmall := decide (mr = wsh.length)
  let b := if wsmall then x else w
  let bsh := if wsmall then xsh else wsh
  let csz := shProd (bsh.drop mr)
  if csz < 5120 >>> bitsLog b.ty then
    if wsmall then f (.typed bsh (repEach csz w)) (.typed xsh x) else f (.typed wsh w) (.typed bsh (repEach csz x))
  else do
    let r ← fill (fun i =>
      if wsmall then (f ((V.typed wsh w).get i) (.typed (bsh.drop mr) (slice (i*csz) csz b))).bind V.bits?
      else (f (.typed (bsh.drop mr) (slice (i*csz) csz b)) ((V.typed xsh x).get i)).bind V.bits?) cam 0
    pure (.typed bsh (.bit r.flatten))

/-- `NAME_rec`, cmp.c 37-48: `recd` is `arith_recd` of a comparison. -/
def recOp (recd : Op → V → V → Out V) (op : Op) (swapped : Bool) (w x : V) : Out V :=
  match op with
  | .le => if swapped then recd .ge x w else recd .le w x
  | .lt => if swapped then recd .gt x w else recd .lt w x
  | .eq => recd .eq w x
  | .ne => recd .ne w x
  | .ge => if !swapped then recd .ge w x else recd .le x w
  | .gt => if !swapped then recd .gt w x else recd .lt x w

/-- `NAME_AA` for `≥`, `>`, `=`, `≠`, cmp.c 138-166. -/
def opAA (c2 : Op → V → V → Out V) (recd : Op → V → V → Out V) (bad : BitVec 64 → BitVec 32) (e : Env) (op : Op) (swapped : Bool) (w x : V) : Out V :=
  match w, x with
  | .typed wsh wd, .typed xsh xd =>
    let wr := wsh.length
    let xr := xsh.length
    if wr ≠ xr then
      let mr := if wr < xr then wr else xr
      if wd.elems.length = 0 ∨ xd.elems.length = 0 then recOp recd op swapped w x
      else if wsh.take mr ≠ xsh.take mr then .err
      else leading (c2 op) wsh wd xsh xd mr
    else if wsh ≠ xsh then .err
    else
      let go (wd xd : Data) : Out V :=
        let ria := xd.elems.length
        if ria ≠ 0 then
          match fnAA op wd.ty (memOf e.wtail wd) (memOf e.xtail xd) ria e.junk with
          | some r => .ok (bits xsh ria r)
          | none => .ub
        else .ok (bits xsh ria e.junk)
      if wd.ty ≠ xd.ty then
        match makeEq bad wd xd with
        | none => recOp recd op swapped w x
        | some none => .ub
        | some (some (wd, xd)) => go wd xd
      else go wd xd
  | _, _ => recOp recd op swapped w x

/-- The reversed comparison: `RNAME` of cmp.c 169-213. -/
def Op.rev : Op → Op
  | .le => .ge
  | .ge => .le
  | .lt => .gt
  | .gt => .lt
  | .eq => .eq
  | .ne => .ne

/-- `NAME_SA`, cmp.c 171-189: 𝕨 is an atom, the table is that of the reversed comparison. -/
def opSA (same : Nat → Nat → Bool) (recd : Op → V → V → Out V) (bad : BitVec 64 → BitVec 32) (e : Env) (op : Op) (swapped : Bool) (w x : V) : Out V :=
  match x with
  | .typed xsh xd =>
    let ria := xd.elems.length
    if ria ≠ 0 then (fnAS same bad op.rev xd.ty (memOf e.xtail xd) w ria e.junk).bind fun r => .ok (bits xsh ria r)
    else .ok (bits xsh ria e.junk)
  | _ => recOp recd op swapped w x

/-- `NAME_c2`, cmp.c 191-213. -/
def c2 (same : Nat → Nat → Bool) (bad : BitVec 64 → BitVec 32) (e : Nat → V → V → Env) : Nat → Op → V → V → Out V
  | 0, _, _, _ => .deep
  | n+1, op, w, x =>
    let recd (op : Op) (w x : V) : Out V :=
      match eachd (c2 same bad e n op) w x with
      | some o => o
      | none => .err
    if x.isArr then
      if w.isArr then
        match op with
        | .le => opAA (c2 same bad e n) recd bad (e n w x) .ge true x w
        | .lt => opAA (c2 same bad e n) recd bad (e n w x) .gt true x w
        | op => opAA (c2 same bad e n) recd bad (e n w x) op false w x
      else opSA same recd bad (e n w x) op false w x
    else if w.isArr then opSA same recd bad (e n w x) op.rev true x w
    else (scalar same op w x).bind fun b => .ok (.num (ofInt b.toNat))

mutual
/-- How deep arrays are nested. -/
def depth : V → Nat
  | .num _ => 0
  | .chr _ => 0
  | .fn _ => 0
  | .typed _ _ => 1
  | .boxed _ xs => depths xs + 1
def depths : List V → Nat
  | [] => 0
  | v :: vs => max (depth v) (depths vs)
end

/-- A comparison, with a recursion as deep as the arguments need. -/
def compare (same : Nat → Nat → Bool) (bad : BitVec 64 → BitVec 32) (e : Nat → V → V → Env) (op : Op) (w x : V) : Out V :=
  c2 same bad e (depth w + depth x + 2) op w x

end Verif.Pervade
