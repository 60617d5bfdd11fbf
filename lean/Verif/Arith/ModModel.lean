import Verif.Bits.Basic
/-!
# Model of `2^k|𝕩` on integer arrays (`/repo/src/builtins/arithd.c` 182-201, `base_andBytes` in
`/repo/src/builtins/bit.c` 13-20)

Arrays are memories of 64-bit words holding little-endian elements of 1, 8, 16 or 32 bits.
-/
namespace Verif.Arith.Pow2
open Verif.Bits

/-- Integer element types. -/
inductive ITy where
  | bit | i8 | i16 | i32
deriving DecidableEq, Repr

def ITy.width : ITy → Nat
  | .bit => 1 | .i8 => 8 | .i16 => 16 | .i32 => 32

/-- Element `j` of width `w`, as stored. -/
def lane (w : Nat) (m : Nat → Word) (j : Nat) : BitVec w := (m (j*w/64) >>> (j*w%64)).setWidth w

/-- The value of element `j`: unsigned for booleans, two's complement otherwise. -/
def ITy.val (t : ITy) (m : Nat → Word) (j : Nat) : Int :=
  match t with
  | .bit => (lane 1 m j).toNat
  | t => (lane t.width m j).toInt

/-- An array written with given elements (the `cpy…Arr` conversions; truncating stores). -/
def pack (w : Nat) (f : Nat → Int) : Nat → Word := fun i =>
  (BitVec.ofBoolListLE ((List.range 64).map fun t => (BitVec.ofInt w (f ((64*i+t)/w))).getLsbD ((64*i+t)%w))).setWidth 64

/-- arithd.c 174-178 `repeatNum` -/
def repeatNum : ITy → Word
  | .i8 => 0x0101010101010101#64
  | .i16 => 0x0001000100010001#64
  | .i32 => 0x0000000100000001#64
  | .bit => 0#64 -- no entry; not used

/-- bit.c 13-20 `base_andBytes`: whole words, then single bytes; `r0` is the uninitialised result. -/
def andBytes (r0 x : Nat → Word) (mask : Word) (numBytes : Nat) : Nat → Word := fun i =>
  if i < numBytes / 8 then x i &&& mask
  else if i = numBytes / 8 ∧ i * 8 ≠ numBytes then
    let v := x i &&& mask
    let low : Word := (1#64 <<< (8 * (numBytes % 8))) - 1#64
    (v &&& low) ||| (r0 i &&& ~~~low)
  else r0 i

/-- arithd.c 182-201: `w = 2^k` as an `i32`; `n = IA(x)`. The byte count is a `usz` product (32 bits). `none` is `UD`.
The final conversions store the masked elements in a narrower array. -/
def stilePow2 (k : Nat) (t : ITy) (n : Nat) (x r0 : Nat → Word) : Option (ITy × (Nat → Word)) :=
  let w := 2^k
  if w = 1 then some (.bit, pack 1 fun _ => 0)
  else if t = .bit then some (t, x)
  else
    let tx : Option (ITy × (Nat → Word)) :=
      if w > 2^(t.width - 1) then
        if w > 32768 then some (.i32, pack 32 (t.val x))
        else if w > 128 then some (.i16, pack 16 (t.val x))
        else none
      else some (t, x)
    tx.map fun (t, x) =>
      let mask := (BitVec.ofNat 64 w - 1#64) * repeatNum t
      let bytes := n * (t.width / 8) % 2^32
      let r := andBytes r0 x mask bytes
      if w = 2 then (.bit, pack 1 (t.val r))
      else if w < 256 then (.i8, pack 8 (t.val r))
      else if w < 65536 then (.i16, pack 16 (t.val r))
      else (t, r)

end Verif.Arith.Pow2
