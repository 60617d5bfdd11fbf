import Verif.Rotate.Spec
import Verif.Select.Model
/-!
# Model of Transpose

`/repo/src/builtins/transpose.c` 57-99 and 171-258 `⍉𝕩` and 452-477 `⍉⁼𝕩`, with Singeli and BMI2 disabled. `none` is a read or write outside of memory.
Reference counts and fills are left out. Arrays come with their shape.
-/
namespace Verif.Transpose
open Verif.Bits Verif.Fold Verif.Slash Verif.Rep Verif.Select Verif.Rotate

/-- `for (i = i0; i < i0+l; i++) m = body(i, m)`. -/
def forLoop {M} (body : Nat → M → Option M) : Nat → Nat → M → Option M
  | 0, _, m => some m
  | l + 1, i, m => (body i m).bind fun m => forLoop body l (i + 1) m

/-- `rp[x*h+y] = xp[y*w+x]`. -/
def move {α} (xs : List α) (w h x y : Nat) (m : List α) : Option (List α) := (xs[y * w + x]?).bind fun e => wr m (x * h + y) e

/-- `transpose_T(rv, xv, bw, bh, w, h)`, 57-62. -/
def transposeT {α} (xs : List α) (bw bh w h : Nat) (m : List α) : Option (List α) :=
  if bh < bw then forLoop (fun y m => forLoop (fun x m => move xs w h x y m) bw 0 m) bh 0 m
  else forLoop (fun x m => forLoop (fun y m => move xs w h x y m) bh 0 m) bw 0 m

/-! ## `interleave_bits`, 77-99 -/

/-- `STEP(V,M,SH)`. -/
def step (v m : Word) (sh : Nat) : Word := (v ||| (v <<< sh)) &&& m

/-- `EXPAND(V)`. -/
def expand (v : Word) : Word :=
  let v := step v 0x0000ffff0000ffff#64 16
  let v := step v 0x00ff00ff00ff00ff#64 8
  let v := step v 0x0f0f0f0f0f0f0f0f#64 4
  let v := step v 0x3333333333333333#64 2
  step v 0x5555555555555555#64 1

/-- `((u32*)x)[i]`, in little-endian memory. -/
def half (x : List Word) (i : Nat) : Option Word := (x[i / 2]?).map fun (w : Word) => (w >>> (32 * (i % 2))) &&& 0xffffffff#64

def interleaveBits (x0 x1 : List Word) (n : Nat) (m : List Word) : Option (List Word) :=
  forLoop (fun i m => (half x0 i).bind fun e0 => (half x1 i).bind fun e1 => wr m i (expand e0 ||| (expand e1 <<< 1))) ((n + 63) / 64) 0 m

/-! ## `⍉𝕩` -/

/-- The elements of an array. -/
inductive Mem (α : Type)
  /-- Numbers, characters or objects. -/
  | elems (xs : List α)
  /-- Booleans, in words. -/
  | bits (x : List Word)

/-- `transpose_noshape`, 171-225. `TI(x,slice)` is `bitarr_slice`; `cpyI8Arr` and `cpyBitArr` keep the elements. -/
def transposeNoshape {α} (x : Mem α) (ia w h : Nat) (junk : Nat → Word) (jb : Nat → Bool) (d : Nat → α) : Option (Mem α) :=
  match x with
  | .elems xs => (transposeT xs w h w h (fresh d ia)).map .elems
  | .bits x =>
    if h = 2 then (bitSlice (fun i => x.getD i 0#64) w w junk).bind fun x1 => (interleaveBits x x1 ia (fresh junk ((ia + 63) / 64))).map .bits
    else (transposeT (listF (fun i => x.getD i 0#64) ia) w h w h (fresh jb ia)).map fun r => .bits (packBits r)

/-- `transp_c1`, 227-249. -/
def transpC1 {α} (x : Mem α) (sh : List Nat) (junk : Nat → Word) (jb : Nat → Bool) (d : Nat → α) : Option (Mem α × List Nat) :=
  match sh with
  | [] => some (x, sh)
  | [_] => some (x, sh)
  | h :: s1 :: rest =>
    let ia := prod sh
    if ia = 0 ∨ h = 1 ∨ h = ia then some (x, s1 :: rest ++ [h])
    else (transposeNoshape x ia (s1 * prod rest) h junk jb d).map fun r => (r, s1 :: rest ++ [h])

/-- `transp_im`, 452-477. -/
def transpIm {α} (x : Mem α) (sh : List Nat) (junk : Nat → Word) (jb : Nat → Bool) (d : Nat → α) : Option (Mem α × List Nat) :=
  if sh.length ≤ 1 then some (x, sh)
  else
    let ia := prod sh
    let w := sh.getLastD 0
    if ia = 0 ∨ w = 1 ∨ w = ia then some (x, w :: sh.dropLast)
    else (transposeNoshape x ia w (prod sh.dropLast) junk jb d).map fun r => (r, w :: sh.dropLast)

/-! ## Reading arrays, for the theorems -/

/-- An array of `n` elements, of either kind. -/
def Has {α} : Mem α → Nat → Prop
  | .elems xs, n => xs.length = n
  | .bits x, n => x.length = (n + 63) / 64

/-- The element at a position. -/
def elemAt {α} : Mem α → Nat → Option (α ⊕ Bool)
  | .elems xs, k => (xs[k]?).map .inl
  | .bits x, k => ((x[k / 64]?).map fun w => w.getLsbD (k % 64)).map .inr

end Verif.Transpose
