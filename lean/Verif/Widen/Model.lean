import Verif.Select.Model
/-!
# Model of the padding of cells to whole bytes or words

`/repo/src/utils/bits.c` 96-310 `bitwiden`, `bitnarrow`, `widenBitArr` and `narrowWidenedBitArr` without `FAST_PDEP`, `/repo/src/builtins/search.c` 124-183 `toIntCell` and `splitCells`,
and `/repo/src/builtins/select.c` 510-528. `none` is a read or write outside of memory; the memory of every array is followed by padding (`ALLOC_PADDING`, `core/mm.c`), of which one
word may be read here. Types are left out: cells are so many bits.
-/
namespace Verif.Widen
open Verif.Bits Verif.Slash Verif.Rep Verif.Select

/-- A read from memory of `lim` words. -/
def rd (x : Nat → Word) (lim i : Nat) : Option Word := if i < lim then some (x i) else none

/-- `rbuu64`, 96-107, with `HAS_U128`. -/
def rbuu64 (x : Nat → Word) (lim off : Nat) : Option Word :=
  (rd x lim (off >>> 6)).bind fun (v0 : Word) => (rd x lim (off >>> 6 + 1)).map fun (v1 : Word) =>
  let v : BitVec 128 := (v0.setWidth 128) ||| ((v1.setWidth 128) <<< (64 : Nat))
  (v >>> (off % 64 : Nat)).setWidth 64

/-- `loadu_u64` of the bytes from `b` on. -/
def loadu (x : Nat → Word) (lim b : Nat) : Option Word :=
  (rd x lim (b / 8)).bind fun v0 =>
  if b % 8 = 0 then some v0
  else (rd x lim (b / 8 + 1)).map fun v1 : Word => (v0 >>> (8 * (b % 8))) ||| (v1 <<< (64 - 8 * (b % 8)))

/-- `rbuu58`, 108-110. -/
def rbuu58 (x : Nat → Word) (lim off : Nat) : Option Word := (loadu x lim (off >>> 3)).map fun v : Word => v >>> (off % 8)

/-- What is read for the cell `i` when cells become 8, 16, 32 or 64 bits, 200-213 and 233-238; a write of fewer bits leaves out the others. `COPY_TO_FROM` gives every bit as a number. -/
def cellOf (x : Nat → Word) (lim rcsz xcsz i : Nat) : Option Word :=
  if rcsz ≤ 32 ∧ xcsz = 1 then (rd x lim (i / 64)).map fun v => if v.getLsbD (i % 64) then 1#64 else 0#64
  else
    let tmsk := (1#64 <<< xcsz) - 1#64
    if rcsz = 64 then (rbuu64 x lim (i * xcsz)).map (· &&& tmsk)
    else (rbuu58 x lim (i * xcsz)).map fun v => ((v &&& tmsk).setWidth rcsz).setWidth 64

/-- `bitwiden` to 8, 16, 32 or 64 bits, from cell `i` on, `cam` cells; the memory is in units of a cell. -/
def widenUnits (x : Nat → Word) (lim rcsz xcsz : Nat) : Nat → Nat → List Word → Option (List Word)
  | 0, _, m => some m
  | cam + 1, i, m => (cellOf x lim rcsz xcsz i).bind fun v => (wr m i v).bind (widenUnits x lim rcsz xcsz cam (i + 1))

/-- 244: the full words of a cell; `p` is where `rp64` points. -/
def fullWords (x : Nat → Word) (lim off p : Nat) : Nat → Nat → List Word → Option (List Word)
  | 0, _, m => some m
  | n + 1, j, m => (rbuu64 x lim (off + j * 64)).bind fun v => (wr m (p + j) v).bind (fullWords x lim off p n (j + 1))

/-- `bitwiden` to several words, 239-248. -/
def widenWords (x : Nat → Word) (lim rcsz xcsz : Nat) : Nat → Nat → List Word → Option (List Word)
  | 0, _, m => some m
  | cam + 1, i, m =>
    let pfu64 := xcsz >>> 6
    let msk := (1#64 <<< (xcsz % 64)) - 1#64
    (fullWords x lim (i * xcsz) (i * (rcsz >>> 6)) pfu64 0 m).bind fun m =>
    (rbuu64 x lim (i * xcsz + pfu64 * 64)).bind fun v => (wr m (i * (rcsz >>> 6) + pfu64) (v &&& msk)).bind fun m =>
    widenWords x lim rcsz xcsz cam (i + 1) m

/-- `ncsz` in `widenBitArr`, 258-264, of 32 bits. -/
def newCell (pcsz : Nat) : Nat := if pcsz ≤ 8 then 8 else if pcsz ≤ 16 then 16 else if pcsz ≤ 32 then 32 else (pcsz + 63) % 2^32 / 64 * 64

/-- The data of a widened array. -/
inductive Wide
  /-- The argument itself. -/
  | same
  /-- Cells of 8, 16, 32 or 64 bits. -/
  | units (bits : Nat) (m : List Word)
  /-- Cells of `words` words. -/
  | words (words : Nat) (m : List Word)

/-- `widenBitArr`, 254-279, for `cam` cells of `pcsz` bits: `cam*ncsz` has 32 bits. -/
def widenBitArr (x : Nat → Word) (lim pcsz cam : Nat) (junk : Nat → Word) : Option (Out Wide) :=
  let ncsz := newCell pcsz
  if ncsz = pcsz then some (.ok .same)
  else
    let ria := cam * ncsz % 2^32
    if ria > bitMax then some .err
    else
      let room := (ria + 63) / 64
      if ncsz ≤ 64 then
        let m := fresh junk (room * 64 / ncsz)
        (if 0 < ria then widenUnits x lim ncsz pcsz cam 0 m else some m).map fun m => .ok (.units ncsz (m.take (ria / ncsz)))
      else (if 0 < ria then widenWords x lim ncsz pcsz cam 0 (fresh junk room) else some (fresh junk room)).map fun m => .ok (.words (ncsz / 64) m)

/-! ## Narrowing -/

/-- `ABState`, 112-116, with the memory that it writes to. -/
structure AB where
  ptr : Nat
  tmp : Word
  off : Nat
  mem : List Word

/-- `ab_add`, 119-130. -/
def abAdd (s : AB) (val : Word) (count : Nat) : Option AB :=
  let off1 := s.off + count
  let tmp := s.tmp ||| val <<< s.off
  if off1 ≥ 64 then (wr s.mem s.ptr tmp).map fun mem => ⟨s.ptr + 1, if s.off = 0 then 0#64 else val >>> (64 - s.off), off1 % 64, mem⟩
  else some ⟨s.ptr, tmp, off1 % 64, s.mem⟩

/-- `ab_done`, 118. -/
def abDone (s : AB) : Option (List Word) := if s.off ≠ 0 then wr s.mem s.ptr s.tmp else some s.mem

/-- `bitnarrow` of cells of 8, 16, 32 or 64 bits, 153-168. -/
def narrowUnits (rcsz : Nat) : List Word → AB → Option AB
  | [], s => some s
  | v :: vs, s => (abAdd s v rcsz).bind (narrowUnits rcsz vs)

/-- 174: `n` whole words from word `j` on. -/
def addWords (x : List Word) : Nat → Nat → AB → Option AB
  | 0, _, s => some s
  | n + 1, j, s => (x[j]?).bind fun v => (abAdd s v 64).bind (addWords x n (j + 1))

/-- `bitnarrow` of cells of several words, 170-179, from word `xp` of `x` on. -/
def narrowWords (x : List Word) (rcsz words : Nat) : Nat → Nat → AB → Option AB
  | 0, _, s => some s
  | cam + 1, xp, s =>
    let rfu64 := rcsz >>> 6
    let msk := (1#64 <<< (rcsz % 64)) - 1#64
    (addWords x rfu64 xp s).bind fun s => (x[xp + rfu64]?).bind fun v => (abAdd s (v &&& msk) (rcsz % 64)).bind (narrowWords x rcsz words cam (xp + words))

/-- `narrowWidenedBitArr`, 281-309, to `cam` cells of `ocsz` bits; `cam*ocsz` has 32 bits. -/
def narrow (ocsz cam : Nat) (x : Wide) (junk : Nat → Word) : Option (Out (List Word)) :=
  let ria := cam * ocsz % 2^32
  if ria > bitMax then some .err
  else
    let s : AB := ⟨0, 0#64, 0, fresh junk ((ria + 63) / 64)⟩
    if ria = 0 then some (.ok s.mem)
    else
      (match x with
        | .same => none
        | .units _ vs => narrowUnits ocsz (vs.take cam) s
        | .words n vs => narrowWords vs ocsz n cam 0 s).bind fun s => (abDone s).map Out.ok

/-! ## Select on widened cells -/

/-- The bytes of a word in memory. -/
def bytesOf (v : Word) : List (BitVec 8) := (List.range 8).map fun k => (v >>> (8 * k)).setWidth 8
/-- The word that bytes are. -/
def wordOf (bs : List (BitVec 8)) : Word := BitVec.ofNat 64 (bs.foldr (fun b a => b.toNat + 256 * a) 0)
/-- Memory of `n` words, from its bytes. -/
def wordsOf : Nat → List (BitVec 8) → List Word
  | 0, _ => []
  | n + 1, bs => wordOf (bs.take 8) :: wordsOf n (bs.drop 8)

/-- `select_c2` in `builtins/select.c` 523-527 for cells of `csz` booleans, not in whole bytes and fewer than 128: the cells are widened, selected, and narrowed again. -/
def selectWidened (sq : Counts → Counts) (fl d1 : Bool) (w : Counts) (csz : Nat) (x : Nat → Word) (lim xn : Nat) (junk : Nat → Word) : Option (Out (Res Word)) :=
  (widenBitArr x lim csz xn junk).bind fun
    | .err => some .err
    | .ok .same => none
    | .ok (.units n m) => (selectC2 sq fl d1 false w (.units n m) xn junk junk).bind fun
      | .err => some .err
      | .ok (.elems vs) => (narrow csz w.len (.units n vs) junk).map (Out.map .bits)
      | .ok _ => none
    | .ok (.words k m) => (selectC2 sq fl d1 false w (.cells 1 (64 * k) (m.flatMap bytesOf)) xn junk fun i => (junk i).setWidth 8).bind fun
      | .err => some .err
      | .ok (.elems vs) => (narrow csz w.len (.words k (wordsOf (w.len * k) vs)) junk).map (Out.map .bits)
      | .ok _ => none

/-- `select_c2` for cells of several booleans, not in whole bytes. -/
def selectBitCells (sq : Counts → Counts) (fl d1 : Bool) (w : Counts) (csz : Nat) (x : Nat → Word) (lim xn : Nat) (junk : Nat → Word) : Option (Out (Res Word)) :=
  if w.len ≥ 2 ∧ xn ≠ 0 ∧ widens w.len csz xn d1 then selectWidened sq fl d1 w csz x lim xn junk
  else selectC2 sq fl d1 false w (.bitCells csz x) xn junk junk

/-! ## Cells as numbers in searches -/

/-- `csz<<meb`, 171 and `bits.c` 256, of 32 bits: the number of bits of cells of `csz` elements, each of `2^meb` bits. -/
def cellBits (csz meb : Nat) : Nat := csz * 2^meb % 2^32

/-- `splitCells`, 165-178, for arrays without objects: whether cells of `csz` elements, each of `2^meb` bits, are searched as numbers. -/
def asNumbers (csz meb : Nat) : Bool := cellBits csz meb ≠ 0 && cellBits csz meb ≤ 62

/-- `toIntCell`, 125-145, for `ria` cells of `bits` bits: the numbers, as memory of 8, 16, 32 or 64 bits, and the number of these bits. When the cells
have such a size already, it's the array itself. -/
def toIntCell (x : Nat → Word) (lim bits ria : Nat) (junk : Nat → Word) : Option (Out (Nat × List Word)) :=
  (widenBitArr x lim bits ria junk).bind fun
    | .err => some .err
    | .ok (.units n m) => some (.ok (n, m))
    | .ok (.words _ _) => none
    | .ok .same => ((List.range ria).mapM fun i => (rd x lim (i * bits / 64)).map fun v => ((v >>> (i * bits % 64)).setWidth bits).setWidth 64).map fun m => .ok (bits, m)

/-- `isnan`. -/
def isNaN (v : Word) : Bool := v &&& 0x7FF0000000000000#64 == 0x7FF0000000000000#64 && v &&& 0xFFFFFFFFFFFFF#64 != 0#64
/-- `==` on doubles (IEEE 754): no NaN is equal to anything, and both zeros are equal. -/
def f64Eq (a b : Word) : Bool := !isNaN a && !isNaN b && (a == b || (a <<< 1 == 0#64 && b <<< 1 == 0#64))
/-- `==` on numbers of `bits` bits: of 8, 16 or 32 bits integers, of 64 bits floats. -/
def numEq (bits : Nat) (a b : Word) : Bool := if bits = 64 then f64Eq a b else a == b

end Verif.Widen
