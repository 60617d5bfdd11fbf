import Verif.Slash.Where
import Verif.BitCopy.Model
/-!
# Replicate by a boolean list: model

`src/builtins/slash.c` 183-237, 318-334 and 405-532, without Singeli: the elements or cells of `x` where `w` is one.

`w` is a memory of words.  The data of `x` is a list of elements of any kind, or a memory of words for booleans.  A read of
`x` or a write of the result outside of them, and a read of `w` after its last word, give `none`.  Lengths are below 2^32,
so `usz` and `u64` sums and products of them do not wrap.  Ranks and shapes, reference counts and fills are left out.
-/
namespace Verif.Slash
open Verif.Bits Verif.Fold

/-- `CLZ`, undefined for 0. -/
def CLZ (v : Word) : Option Nat := (List.range 64).find? fun i => v.getLsbD (63 - i)

/-- 412-415: `while (!we) { if (ie==0) return zeroCells(x); we = wp[--ie]; }`. -/
def findLast (w : Nat → Word) : Nat → Word → Option (Nat × Word)
  | ie, we =>
    if we = 0#64 then
      match ie with
      | 0 => none
      | ie + 1 => findLast w ie (w ie)
    else some (ie, we)

/-- The inner loop of `groups_lt`, 325-327: words from `i`, `k` left. -/
def groupsCount (w : Nat → Word) : Nat → Nat → Nat → Word → Nat × Word
  | 0, _, r, prev => (r, prev)
  | k + 1, i, r, prev => groupsCount w k (i + 1) (r + POPC (w i ^^^ ((w i <<< 1) ||| prev))) (w i >>> 63)

/-- The outer loop of `groups_lt`: at most `fuel` times. -/
def groupsLoop (w : Nat → Word) (l max : Nat) : Nat → Nat → Nat → Word → Bool
  | 0, _, _, _ => true
  | fuel + 1, i, r, prev =>
    if i < l then
      let e := if l - i < 256 then l else i + 256
      let (r, prev) := groupsCount w (e - i) i r prev
      if r > max then false else groupsLoop w l max fuel e r prev
    else true

/-- `groups_lt`, 319-331. -/
def groupsLt (w : Nat → Word) (len max : Nat) : Bool := groupsLoop w ((len - 1) / 64 + 1) max ((len - 1) / 64 + 1) 0 0 0#64

/-! ## `compress_grouped`, 183-237 -/

/-- `while (wv==0) { wv=wp[++i]; }`, `k` words left after `i`. -/
def skip0 (w : Nat → Word) : Nat → Word → Nat → Option (Word × Nat × Nat)
  | k, wv, i =>
    if wv = 0#64 then
      match k with
      | 0 => none
      | k + 1 => skip0 w k (w (i + 1)) (i + 1)
    else some (wv, i, k)

/-- `while (wv==-(u64)1) { wv=++i<wn?wp[i]:0; }`, `k` words left after `i`. -/
def skip1 (w : Nat → Word) : Nat → Word → Nat → Word × Nat × Nat
  | k, wv, i =>
    if wv = ~~~0#64 then
      match k with
      | 0 => (0#64, i + 1, 0)
      | k + 1 => skip1 w k (w (i + 1)) (i + 1)
    else (wv, i, k)

/-- The loop of `COMPRESS_GROUP(CPY)` at most `fuel` times; `k` is the number of words after `i`, and
`cpy m ri xi l` copies `l` units from `xi` of `x` to `ri` of the result `m`. -/
def groupLoop {M} (cpy : M → Nat → Nat → Nat → Option M) (w : Nat → Word) (width e : Nat) : Nat → Nat → Word → Nat → Nat → M → Option M
  | fuel, k, wv, i, ri, m =>
    if ri < e then
      match fuel with
      | 0 => none
      | fuel + 1 =>
        (skip0 w k wv i).bind fun (wv, i, k) =>
        (CTZ wv).bind fun c0 =>
        let i0 := 64 * i + c0
        let wv := wv ||| (wv - 1#64)
        let (wv, i, k) := skip1 w k wv i
        (CTZ (~~~wv)).bind fun c1 =>
        let i1 := 64 * i + c1
        let wv := wv &&& (wv + 1#64)
        let l := (i1 - i0) * width
        (cpy m ri (i0 * width) l).bind fun m => groupLoop cpy w width e fuel k wv i (ri + l) m
    else some m

/-- `COMPRESS_GROUP(CPY)`; every turn copies at least one cell. -/
def compressGroup {M} (cpy : M → Nat → Nat → Nat → Option M) (w : Nat → Word) (width wia wsum : Nat) (m : M) : Option M :=
  groupLoop cpy w width (wsum * width) wsum ((wia - 1) / 64) (w 0) 0 0 m

/-- `MEM_CPY`, in elements. -/
def memCpy {α} (xs : List α) (m : List α) (ri xi l : Nat) : Option (List α) :=
  if xi + l ≤ xs.length ∧ ri + l ≤ m.length then some (m.take ri ++ (xs.drop xi).take l ++ m.drop (ri + l)) else none

/-- `bit_cpyN`, in bits. -/
def bitCpy (x : Nat → Word) (m : List Word) (ri xi l : Nat) : Option (List Word) :=
  let s := BitCopy.bit_cpy (fun i => m.getD i 0#64) ri (fun i => x i.toNat) xi l
  if s.log.all (fun i => decide (i < m.length)) then some ((List.range m.length).map s.mem) else none

/-! ## Loops of `compress` -/

/-- 439-442: `for (u64 v=wp[i], x=xp[i]; v; v&=v-1) …`; at most 64 times. -/
def packWord (x : Word) : Nat → Word → Word → Nat → List Word → Option (Word × Nat × List Word)
  | fuel, v, o, j, m =>
    if v = 0#64 then some (o, j, m)
    else match fuel with
      | 0 => none
      | fuel + 1 =>
        (CTZ v).bind fun c =>
        let o := (o >>> 1) ||| ((x >>> c) <<< 63)
        let j := j + 1
        (if j % 64 = 0 then wr m (j / 64 - 1) o else some m).bind fun m => packWord x fuel (v &&& (v - 1#64)) o j m

/-- 438: words from `i`, `k` left. -/
def packWords (w x : Nat → Word) : Nat → Nat → Word → Nat → List Word → Option (Word × Nat × List Word)
  | 0, _, o, j, m => some (o, j, m)
  | k + 1, i, o, j, m => (packWord (x i) 64 (w i) o j m).bind fun (o, j, m) => packWords w x k (i + 1) o j m

/-- 428-446. -/
def compressBits (w x : Nat → Word) (wia wsum : Nat) (junk : Nat → Word) : Option (List Word) :=
  (packWords w x ((wia + 63) / 64) 0 0#64 0 (fresh junk ((wsum + 63) / 64))).bind fun (o, j, m) =>
  let q := (64 - j % 64) % 64
  if q ≠ 0 then wr m (j / 64) (o >>> q) else some m

/-- `for (usz j=0; j<bs; j++) rp[j] = xp[buf[j]];` with `rp` at `p` and `xp` at `i`; `buf` is of `i16`. -/
def gather {α} (xs : List α) (i : Nat) (buf : List (BitVec 16)) (p : Nat) : Nat → Nat → List α → Option (List α)
  | 0, _, m => some m
  | k + 1, j, m =>
    (buf[j]?).bind fun v => (if v.msb then none else xs[i + v.toNat]?).bind fun e => (wr m (p + j) e).bind fun m => gather xs i buf p k (j + 1) m

/-- The loop of `COMPRESS_BLOCK_PREP`, 449-458. -/
def blockLoop {α} (w : Nat → Word) (xs : List α) (wia wsum : Nat) : Nat → Nat → List (BitVec 16) → List α → Nat → Option (List α)
  | 0, i, _, m, _ => if i < wia then none else some m
  | fuel + 1, i, buf, m, p =>
    if i < wia then
      let last := bspMax > wia - i
      let b := if last then wia - i else bspMax
      let wp := fun k => w (i / 64 + k)
      let bs := if last then wsum - p else bit_sum wp b
      (whereBlock wp buf b bs).bind fun buf => (gather xs i buf p bs 0 m).bind fun m => blockLoop w xs wia wsum fuel (i + b) buf m (p + bs)
    else some m

/-- `COMPRESS_BLOCK_PREP`. -/
def compressBlock {α} (w : Nat → Word) (xs : List α) (wia wsum : Nat) (junk : Nat → Word) (m : List α) : Option (List α) :=
  blockLoop w xs wia wsum (wia / bspMax + 1) 0 (fresh (fun i => (junk i).setWidth 16) bspMax) m 0

/-- `for (usz i=0; i<wia; i++) { *rp = xp[i]; rp+= bitp_get(wp,i); }`, 482-483. -/
def compressDense {α} (w : Nat → Word) (xs : List α) : Nat → Nat → List α → Nat → Option (List α)
  | 0, _, m, _ => some m
  | k + 1, i, m, p => (xs[i]?).bind fun v => (wr m p v).bind fun m => compressDense w xs k (i + 1) m (p + if bitF w i then 1 else 0)

/-- `for (usz i=0; i<wia; i++) if (bitp_get(wp,i)) …`: 206-210 and 514-516; `csz` elements each, written at `p`. -/
def compressGet {α} (w : Nat → Word) (xs : List α) (csz : Nat) : Nat → Nat → List α → Nat → Option (List α)
  | 0, _, m, _ => some m
  | k + 1, i, m, p =>
    if bitF w i then (memCpy xs m p (i * csz) csz).bind fun m => compressGet w xs csz k (i + 1) m (p + csz)
    else compressGet w xs csz k (i + 1) m p

/-! ## `compress`, 406-532 -/

/-- The right argument. -/
inductive Data (α : Type)
  /-- Booleans, one per cell: `xl==0`. -/
  | bits (x : Nat → Word)
  /-- Cells of 8, 16, 32 or 64 bits not of objects: `xl` 3 to 6.  `small` for 8 and 16. -/
  | typed (small : Bool) (xs : List α)
  /-- Objects, one per cell; `ptr` if there is a pointer to them: `arr_bptr(x)!=NULL`. -/
  | objs (ptr : Bool) (xs : List α)
  /-- Cells of other sizes, made of `width` elements; for boolean arrays with `csz%8==0` the elements are bytes. -/
  | cells (width : Nat) (xs : List α)
  /-- Cells of `width` objects without a pointer to them. -/
  | objCells (width : Nat) (xs : List α)
  /-- Cells of `width` booleans. -/
  | bitCells (width : Nat) (x : Nat → Word)

/-- The result. -/
inductive Res (α : Type)
  /-- `x` itself. -/
  | same
  | elems (xs : List α)
  | bits (ws : List Word)

/-- 424-520 by kind of `x`, after `wia` has been set to the length up to the last one; `d` is what fresh memory contains. -/
def compressBy {α} (w : Nat → Word) (wia wsum : Nat) (junk : Nat → Word) (d : Nat → α) : Data α → Option (Res α)
  | .bits x => (compressBits w x wia wsum junk).map .bits
  | .typed true xs =>
    if wsum < wia / 2 then (compressBlock w xs wia wsum junk (fresh d wsum)).map .elems
    else if groupsLt w wia (wia / 128) then (compressGroup (memCpy xs) w 1 wia wsum (fresh d wsum)).map .elems
    else (compressDense w xs wia 0 (fresh d wsum) 0).map .elems
  | .typed false xs =>
    if wsum ≥ wia / 8 ∧ groupsLt w wia (wia / 16) then (compressGroup (memCpy xs) w 1 wia wsum (fresh d wsum)).map .elems
    else (compressBlock w xs wia wsum junk (fresh d wsum)).map .elems
  | .objs true xs => (compressBlock w xs wia wsum junk (fresh d wsum)).map .elems
  | .objs false xs => (compressGet w xs 1 wia 0 (fresh d wsum) 0).map .elems
  | .cells width xs =>
    if xs = [] then some (.elems []) else (compressGroup (memCpy xs) w width wia wsum (fresh d (wsum * width))).map .elems
  | .objCells width xs =>
    if xs = [] then some (.elems []) else (compressGet w xs width wia 0 (fresh d (wsum * width)) 0).map .elems
  | .bitCells width x =>
    if width = 0 then some (.bits []) else (compressGroup (bitCpy x) w width wia wsum (fresh junk ((wsum * width + 63) / 64))).map .bits

/-- `compress(w, x, wia)`. -/
def compress {α} (w : Nat → Word) (x : Data α) (wia : Nat) (junk : Nat → Word) (d : Nat → α) : Option (Res α) :=
  let w := trim w wia
  let we := if wia % 64 ≠ 0 then w (wia / 64) else 0#64
  match findLast w (wia / 64) we with
  | none => some (match x with | .bits _ => .bits [] | .bitCells _ _ => .bits [] | _ => .elems [])
  | some (ie, we) =>
    (CLZ we).bind fun c =>
    let wia' := 64 * (ie + 1) - c
    let wsum := bit_sum w wia'
    if wsum = wia then some .same
    else compressBy w wia' wsum junk d x

end Verif.Slash
