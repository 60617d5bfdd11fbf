import Verif.Take.Model
import Verif.Shift.Spec
import Verif.BitCopy.Model
/-!
# Model of shifts and Reverse

`/repo/src/builtins/sfns.c` 1094-1215: `shift_check`, `shiftb_c1`, `shiftb_c2`, `shifta_c1`, `shifta_c2` and `reverse_c1`, and `/repo/src/core/arrFns.h` 84-95 `multWidthLog`, `cellWidthLog`.
`none` is a read or write outside of memory. Reference counts and the fill of the result are left out, and so is the choice of the type of the result (C12). Sizes are exact: they are at
most those of the arguments. The fill is 0 when the argument has none (`PROPER_FILLS` is off).
-/
namespace Verif.Shift
open Verif.Bits Verif.Slash Verif.Rep Verif.Select Verif.Under Verif.Rotate
open Verif.Take (Kind Res cellSize elemKind)

/-- `shift_check`, 1094-1099: false for an error. Axis `i+wr-xr` of `𝕨` against axis `i` of `𝕩`, from 1 on. -/
def shiftCheck (wsh xsh : List Nat) : Bool :=
  let wr := wsh.length
  let xr := xsh.length
  if wr + 1 ≠ xr ∧ wr ≠ xr then false
  else (List.range' 1 (xr - 1)).all fun i => wsh[i + wr - xr]? == xsh[i]?

/-- `reshape_one(ia, xf)`, which is C42: an array of fills. -/
def ones {M X α} (K : Kind M X α) (f : α) (ia : Nat) : Option M := K.fill (K.new ia) 0 f ia

/-- `shiftb_c1`, 1101-1115. -/
def shiftb1 {M X α} (K : Kind M X α) (f : α) (x : X) (sh : List Nat) : Option (Out (Res M X)) :=
  if sh = [] then some .err
  else
    let ia := prod sh
    if ia = 0 then some (.ok (.same x sh))
    else
      let csz := cellSize sh
      if ia = csz then (ones K f ia).map fun r => .ok (.made r sh)
      else (K.copy (K.new ia) csz x 0 (ia - csz)).bind fun r => (K.fill r 0 f csz).map fun r => .ok (.made r sh)

/-- `shiftb_c2`, 1116-1130; an atom `𝕨` has the shape `[]`. -/
def shiftb2 {M X α} (K : Kind M X α) (w : X) (wsh : List Nat) (x : X) (sh : List Nat) : Option (Out (Res M X)) :=
  if sh = [] then some .err
  else if !shiftCheck wsh sh then some .err
  else
    let wia := prod wsh
    let xia := prod sh
    let mid := if wia < xia then wia else xia
    (K.copy (K.new xia) 0 w 0 mid).bind fun r => (K.copy r mid x 0 (xia - mid)).map fun r => .ok (.made r sh)

/-- `shifta_c1`, 1132-1146. -/
def shifta1 {M X α} (K : Kind M X α) (f : α) (x : X) (sh : List Nat) : Option (Out (Res M X)) :=
  if sh = [] then some .err
  else
    let ia := prod sh
    if ia = 0 then some (.ok (.same x sh))
    else
      let csz := cellSize sh
      if ia = csz then (ones K f ia).map fun r => .ok (.made r sh)
      else (K.copy (K.new ia) 0 x csz (ia - csz)).bind fun r => (K.fill r (ia - csz) f csz).map fun r => .ok (.made r sh)

/-- `shifta_c2`, 1147-1164. -/
def shifta2 {M X α} (K : Kind M X α) (w : X) (wsh : List Nat) (x : X) (sh : List Nat) : Option (Out (Res M X)) :=
  if sh = [] then some .err
  else if !shiftCheck wsh sh then some .err
  else
    let wia := prod wsh
    let xia := prod sh
    if wia < xia then
      let m := xia - wia
      (K.copy (K.new xia) 0 x wia m).bind fun r => (K.copy r m w 0 wia).map fun r => .ok (.made r sh)
    else (K.copy (K.new xia) 0 w (wia - xia) xia).map fun r => .ok (.made r sh)

/-! ## `reverse_c1`, 1166-1215 -/

/-- `CTZ` of a number of 32 bits that isn't 0. -/
def ctz (n : Nat) : Nat := ((List.range 32).find? n.testBit).getD 32

/-- `multWidthLog`, arrFns.h 84-87. -/
def multWidthLog (n lw : Nat) : Nat := if n &&& (n - 1) ≠ 0 then 7 else lw + ctz (n ||| (128 >>> lw))

/-- `cellWidthLog`, arrFns.h 88-95. -/
def cellWidthLog (lw : Nat) (sh : List Nat) : Nat := if sh.length ≤ 1 then lw else multWidthLog (cellSize sh) lw

/-- `for (ux i=0; i<n; i++) rp[i]=xp[n-i-1]`, the rest of it from `i` on with `k` steps to go: `cpy r a b` copies item `b` of `xp` to item `a`. -/
def itemLoop {M} (cpy : M → Nat → Nat → Option M) (n : Nat) : Nat → Nat → M → Option M
  | 0, _, r => some r
  | k + 1, i, r => (cpy r i (n - i - 1)).bind (itemLoop cpy n k (i + 1))

/-- 1206-1213, with `cam - i` steps to go. -/
def cellLoop {M} (cpy : M → Nat → Nat → Nat → Option M) (csz : Nat) : Nat → Nat → Nat → M → Option M
  | 0, _, _, r => some r
  | k + 1, rp, ip, r => (cpy r rp (ip - csz) csz).bind (cellLoop cpy csz k (rp + csz) (ip - csz))

/-- `⌽𝕩` for elements of `b = 2^(lw-3)` bytes: numbers, characters and, with 8 bytes, objects. Memory is a list of bytes; a load and a store of an item of `u8` … `u64` copies its bytes.
`m_tyarrc` allocates `IA(x)` times the size of an item. For objects an item is only used if a cell is one of them, as there are no smaller ones. -/
def reverseBytes (junk : Nat → BitVec 8) (lw : Nat) (x : List (BitVec 8)) (sh : List Nat) : Option (Out (Res (List (BitVec 8)) (List (BitVec 8)))) :=
  match sh with
  | [] => some .err
  | n :: _ =>
    if n ≤ 1 then some (.ok (.same x sh))
    else
      let xl := cellWidthLog lw sh
      let ia := prod sh
      if xl ≤ 6 ∧ (3 ≤ xl ∨ xl = 0) then
        let wd := 2^(xl - 3)
        (itemLoop (fun r a b => memCpy x r (a * wd) (b * wd) wd) n n 0 (fresh junk (ia * wd))).map fun r => .ok (.made r sh)
      else
        let b := 2^(lw - 3)
        (cellLoop (fun r rp ip l => memCpy x r (rp * b) (ip * b) (l * b)) (cellSize sh) n 0 ia (fresh junk (ia * b))).map fun r => .ok (.made r sh)

/-- A load of item `i` of `wd` bits, 8 to 64, from an array of bits. -/
def loadItem (wd : Nat) (x : List Word) (i : Nat) : Option Word :=
  (x[i * wd / 64]?).map fun (v : Word) => (v >>> (i * wd % 64)) &&& BitVec.ofNat 64 (2^wd - 1)

/-- A store of item `i`. -/
def storeItem (wd : Nat) (r : List Word) (i : Nat) (v : Word) : Option (List Word) :=
  (r[i * wd / 64]?).bind fun u =>
    wr r (i * wd / 64) ((u &&& ~~~(BitVec.ofNat 64 (2^wd - 1) <<< (i * wd % 64))) ||| (v <<< (i * wd % 64)))

/-- `⌽𝕩` for booleans. The allocation of an array of bits is rounded up to words; with items it has `IA(x)` times the size of an item. -/
def reverseBits (junk : Nat → Word) (x : List Word) (sh : List Nat) : Option (Out (Res (List Word) (List Word))) :=
  match sh with
  | [] => some .err
  | n :: _ =>
    if n ≤ 1 then some (.ok (.same x sh))
    else
      let xl := cellWidthLog 0 sh
      let ia := prod sh
      if xl ≤ 6 ∧ (3 ≤ xl ∨ xl = 0) then
        if xl = 0 then
          let g := (n + 63) / 64
          if g ≤ x.length then some (.ok (.made ((List.range ((ia + 63) / 64)).map (BitCopy.reverse_bits (fun i => x.getD i 0#64) junk n)) sh)) else none
        else
          let wd := 2^xl
          (itemLoop (fun r a b => (loadItem wd x b).bind (storeItem wd r a)) n n 0 (fresh junk ((ia * (wd / 8) + 7) / 8))).map fun r => .ok (.made r sh)
      else
        (cellLoop (fun r rp ip l => bitCpy (fun i => x.getD i 0#64) r rp ip l) (cellSize sh) n 0 ia (fresh junk ((ia + 63) / 64))).map fun r => .ok (.made r sh)

end Verif.Shift
