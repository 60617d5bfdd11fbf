import Verif.Rep.Model
/-!
# Model of Select

`/repo/src/builtins/select.c` 84-135 and 397-663 `𝕨⊏𝕩` for `𝕨` of depth at most 1, with Singeli disabled. `none` is a read or write outside of memory.
Reference counts, shapes and fills are left out.
-/
namespace Verif.Select
open Verif.Bits Verif.Fold Verif.Slash Verif.Rep

/-- `WRAP(X,IA,MSG)`, `stuff.h` 75, with `none` for `MSG`: sums and comparisons of 64 bits, and a result of 32 bits. -/
def wrap (v : Int) (n : Nat) : Option Nat :=
  let u := BitVec.ofInt 64 v
  if n ≤ u.toNat then
    let u := u + BitVec.ofNat 64 n
    if n ≤ u.toNat then none else some (u.toNat % 2^32)
  else some (u.toNat % 2^32)

/-- The array to select from. -/
inductive Src (α : Type)
  /-- Booleans, one per cell: `xl==0`. -/
  | bits (x : Nat → Word)
  /-- Cells of 8, 16, 32 or 64 bits not of objects (`xl` 3 to 6), each made of `csz` elements. -/
  | units (csz : Nat) (xs : List α)
  /-- Cells of other sizes in whole bytes, each made of `csz` elements of `bits` bits; `xs` are the bytes. -/
  | cells (bits csz : Nat) (xs : List α)
  /-- Cells of `csz` booleans, not in whole bytes. -/
  | bitCells (csz : Nat) (x : Nat → Word)
  /-- Objects, one per cell. -/
  | objs (xs : List α)
  /-- Cells of `csz` objects. -/
  | objCells (csz : Nat) (xs : List α)

/-! ## One index -/

/-- `TI(x,slice)(incG(x), s, l)` and `IGet`: a part of the data. -/
def sliceOf {α} (xs : List α) (s l : Nat) : Option (List α) := if s + l ≤ xs.length then some ((xs.drop s).take l) else none

/-- `bitarr_slice`, `tyarr.c` 76-81. -/
def bitSlice (x : Nat → Word) (s l : Nat) (junk : Nat → Word) : Option (List Word) := bitCpy x (fresh junk ((l + 63) / 64)) 0 s l

/-- `o2i64`: an integer of 64 bits. -/
def o2i64 (w : Option Int) : Option Int := w.bind fun v => if v < -2^63 ∨ 2^63 ≤ v then none else some v

/-- A number or an array with one number as `𝕨`, 401-411 and 430-451; `xn` is `*SH(x)`. `wi*csz` has 32 bits. -/
def selectOne {α} (w : Option Int) (x : Src α) (xn : Nat) (junk : Nat → Word) : Option (Out (Res α)) :=
  match o2i64 w with
  | none => some .err
  | some v =>
    match wrap v xn with
    | none => some .err
    | some wi =>
      let elems (r : Option (List α)) : Option (Out (Res α)) := r.map fun m => .ok (.elems m)
      match x with
      | .bits x => (bitSlice x wi 1 junk).map fun m => .ok (.bits m)
      | .units csz xs => elems (sliceOf xs (wi * csz % 2^32 / csz) 1)
      | .cells bits csz xs => elems (sliceOf xs (wi * csz % 2^32 * bits / 8) (csz * bits / 8))
      | .bitCells csz x => (bitSlice x (wi * csz % 2^32) csz junk).map fun m => .ok (.bits m)
      | .objs xs => elems (sliceOf xs wi 1)
      | .objCells csz xs => elems (sliceOf xs (wi * csz % 2^32) csz)

/-! ## Copies of a cell: `cf_get` and `cf_call`, 84-135 -/

/-- What `f.fn` copies for cells of this many bytes: pairs of an offset and a number of bytes. -/
def cfParts (bytes : Nat) : List (Nat × Nat) :=
  if bytes < 5 then [(0, bytes)]
  else if bytes < 8 then [(0, 4), (bytes - 4, 4)]
  else if bytes = 8 then [(0, 8)]
  else if bytes = 16 then [(0, 16)]
  else if bytes ≤ 16 then [(0, 8), (bytes - 8, 8)]
  else if bytes ≤ 24 then [(0, 16), (bytes - 8, 8)]
  else if bytes ≤ 32 then [(0, 24), (bytes - 8, 8)]
  else [(0, bytes)]

/-- `cf_call` for whole bytes, from `xs` of `x` to `rs` of the result. -/
def cfCall {α} (x : List α) (rs xs : Nat) : List (Nat × Nat) → List α → Option (List α)
  | [], m => some m
  | (o, l) :: ps, m => (memCpy x m (rs + o) (xs + o) l).bind fun m => cfCall x rs xs ps m

/-- `bitp_set(r, rs, bitp_get(x, xs))`. -/
def bitSet (x : Nat → Word) (m : List Word) (rs xs : Nat) : Option (List Word) :=
  (m[rs / 64]?).bind fun w => wr m (rs / 64) (if bitF x xs then w ||| (1#64 <<< (rs % 64)) else w &&& ~~~(1#64 <<< (rs % 64)))

/-- `cf_call` for a number of bits that isn't a multiple of 8. -/
def cfBits (x : Nat → Word) (bits rs xs : Nat) (m : List Word) : Option (List Word) := if bits = 1 then bitSet x m rs xs else bitCpy x m rs xs bits

/-! ## The loops -/

/-- One cell after the other: `cpy m i c` copies cell `c` of `x` to cell `i` of the result. A bad index is an error. -/
def cellLoop {M} (cpy : M → Nat → Nat → Option M) (xn : Nat) : List (Option Int) → Nat → M → Option (Out M)
  | [], _, m => some (.ok m)
  | w :: ws, i, m =>
    match (o2i64 w).bind (wrap · xn) with
    | none => some .err
    | some c => (cpy m i c).bind fun m => cellLoop cpy xn ws (i + 1) m

/-- `select_properError`, 151-154: selects again from the elements as objects, which gives the error; otherwise the program ends. -/
def properError {M} (ws : List Int) (xn : Nat) : Option (Out M) := if ws.all fun v => (wrap v xn).isSome then none else some .err

/-- 538-545: from the last to the first index, the bits of a word; `i` is the number of indices left. -/
def bitsLoop (x : Nat → Word) (xn : Nat) (ws : List Int) : Nat → Word → List Word → Option (Out (List Word))
  | 0, _, m => some (.ok m)
  | i + 1, b, m =>
    (ws[i]?).bind fun v =>
    match wrap v xn with
    | none => properError ws xn
    | some n =>
      let b := 2#64 * b + ((x (n / 64) >>> (n % 64)) &&& 1#64)
      (if i % 64 = 0 then wr m (i / 64) b else some m).bind fun m => bitsLoop x xn ws i b m

/-- `CASE(S, E)`: `rp[i] = (xp+off)[ip[i]]`, from `i` on. -/
def gatherAt {α} (xs : List α) (off : Nat) : List Int → Nat → List α → Option (List α)
  | [], _, m => some m
  | v :: vs, i, m => (if off + v < 0 then none else xs[(off + v).toNat]?).bind fun e => (wr m i e).bind fun m => gatherAt xs off vs (i + 1) m

/-- The result of a block or of all of them. -/
inductive Step (M : Type)
  | ok (m : M)
  | bad
  /-- `w` has to be made wider first. -/
  | widen

/-- `e+((W)xn & (W)-(e<0))` as a number of `bits` bits. -/
def addLen (bits xn : Nat) (e : Int) : Int := (BitVec.ofInt bits (e + if e < 0 then (BitVec.ofNat bits xn).toInt else 0)).toInt

/-- The blocks of `CPUSEL` for indices of 8 or 16 bits, 483-499, with `bl` indices each. `wt` is the size of the temporary memory, if there is any. -/
def blocks {α} (bits bl : Nat) (xs : List α) (xn : Nat) : Nat → List Int → Nat → Option Nat → List α → Option (Step (List α))
  | fuel, ws, i0, wt, m =>
    match ws with
    | [] => some (.ok m)
    | w :: _ =>
      match fuel with
      | 0 => none
      | fuel + 1 =>
        let b := ws.take bl
        let lo := b.foldl (fun a e => if e < a then e else a) w
        let hi := b.foldl (fun a e => if a < e then e else a) w
        let next := fun wt m => blocks bits bl xs xn fuel (ws.drop bl) (i0 + b.length) wt m
        if lo < -xn then some .bad
        else if hi ≥ xn then some .bad
        else if hi ≥ 0 then
          if lo < 0 then
            if xn > 2^(bits - 1) then some .widen
            else
              let size := wt.getD b.length
              if size < b.length then none
              else (gatherAt xs 0 (b.map (addLen bits xn)) i0 m).bind (next (some size))
          else (gatherAt xs 0 b i0 m).bind (next wt)
        else (gatherAt xs xn b i0 m).bind (next wt)

/-- `CASEW(S, E)`. -/
def units32 {α} (xs : List α) (xn : Nat) (ws : List Int) (m : List α) : Option (Out (List α)) :=
  cellLoop (fun m i c => (xs[c]?).bind fun e => wr m i e) xn (ws.map some) 0 m

/-- `CPUSEL(W, NEXT)`, 479-501, for indices of 16 bits; `cpyI32Arr` keeps the numbers. -/
def cpusel16 {α} (xs : List α) (xn : Nat) (ws : List Int) (m : List α) : Option (Out (List α)) :=
  (blocks 16 8192 xs xn ws.length ws 0 none m).bind fun
    | .ok m => some (.ok m)
    | .bad => properError ws xn
    | .widen => units32 xs xn ws m

/-- `CPUSEL(W, NEXT)`, 479-501; `cpyI16Arr` keeps the numbers. The memory for the result is made again, with the same size. -/
def cpusel {α} (xs : List α) (xn : Nat) (ws : List Int) (m : List α) : Sum.Ty → Option (Out (List α))
  | .i32 => units32 xs xn ws m
  | .i16 => cpusel16 xs xn ws m
  | .i8 =>
    (blocks 8 16384 xs xn ws.length ws 0 none m).bind fun
      | .ok m => some (.ok m)
      | .bad => properError ws xn
      | .widen => cpusel16 xs xn ws m

/-! ## `select_c2` for two or more indices -/

/-- `generic_l`, 606-647. `ints` if `𝕨` is of integers; `wia*csz`, `csz<<elwBitLog(xe)`, `i*csz` and `csz*c` have 32 bits. -/
def generic {α} (ints : Bool) (ws : List (Option Int)) (x : Src α) (xn : Nat) (junk : Nat → Word) (d : Nat → α) : Option (Out (Res α)) :=
  let wia := ws.length
  let elems (cpy : List α → Nat → Nat → Option (List α)) (room : Nat) : Option (Out (Res α)) :=
    (cellLoop cpy xn ws 0 (fresh d room)).map (Out.map Res.elems)
  let bools (cpy : List Word → Nat → Nat → Option (List Word)) (ria : Nat) : Option (Out (Res α)) :=
    if ria > bitMax then some .err else (cellLoop cpy xn ws 0 (fresh junk ((ria + 63) / 64))).map (Out.map Res.bits)
  match x with
  | .bits x => bools (fun m i c => if ints then bitSet x m i c else bitCpy x m i c 1) wia
  | .units csz xs => elems (fun m i c => memCpy xs m (i * csz % 2^32 / csz) (c * csz % 2^32 / csz) 1) (wia * csz % 2^32 / csz)
  | .cells bits csz xs =>
    let ria := wia * csz % 2^32
    if csz = 0 then some (.ok (zeroCells (.cells 0 xs)))
    else if bits = 1 ∧ ria > bitMax then some .err
    else if ints then
      let bytes := csz * bits % 2^32 / 8
      elems (fun m i c => cfCall xs (i * bytes) (c * bytes) (cfParts bytes) m) (ria * bits / 8)
    else elems (fun m i c => memCpy xs m (i * csz % 2^32 * bits / 8) (c * csz % 2^32 * bits / 8) (csz * bits / 8)) (ria * bits / 8)
  | .bitCells csz x =>
    if csz = 0 then some (.ok (.bits []))
    else bools (fun m i c => if ints then cfBits x csz (i * csz) (c * csz) m else bitCpy x m (i * csz % 2^32) (c * csz % 2^32) csz) (wia * csz % 2^32)
  | .objs xs => elems (fun m i c => memCpy xs m i c 1) wia
  | .objCells csz xs =>
    if csz = 0 then some (.ok (.elems []))
    else elems (fun m i c => memCpy xs m (i * csz % 2^32) (c * csz % 2^32) csz) (wia * csz % 2^32)

/-- `TYPE(W, NEXT)`, 532-560. -/
def selectInts {α} (t : Sum.Ty) (ws : List Int) (x : Src α) (xn : Nat) (junk : Nat → Word) (d : Nat → α) : Option (Out (Res α)) :=
  let wia := ws.length
  match x with
  | .bits x =>
    if wia > bitMax then some .err else (bitsLoop x xn ws wia 0#64 (fresh junk ((wia + 63) / 64))).map (Out.map Res.bits)
  | .units csz xs => (cpusel xs xn ws (fresh d (wia * csz % 2^32)) t).map (Out.map fun m => .elems (m.take wia))
  | .objs xs => (cellLoop (fun m i c => (xs[c]?).bind fun e => wr m i e) xn (ws.map some) 0 (fresh d wia)).map (Out.map Res.elems)
  | _ => generic true (ws.map some) x xn junk d

/-- The bits of the indices as integers: `cpyI8Arr(w)`. -/
def bitInts (w : Nat → Word) (n : Nat) : List Int := (listF w n).map fun b => if b then 1 else 0

/-- Whether one of the first `n` bits is set: 577-579; `bitp_l0` are the bits of the last word before `n`. -/
def anyBit (w : Nat → Word) (n : Nat) : Bool :=
  (List.range (n / 64)).any (fun i => w i != 0#64) || (w (n / 64) &&& ((1#64 <<< (n % 64)) - 1#64)) != 0#64

/-- `bit_sel(w, x0, x1)`, `utils/bits.c` 39-91, for values in memory as they are. -/
def bitSel {α} (w : Nat → Word) (n : Nat) (e0 e1 : α) : List α := (List.range n).map fun i => if bitF w i then e1 else e0

/-- The same for booleans, 54-56; `i64EachDec` makes an array of equal elements, and `bit_negate` the complement. -/
def bitSelBits (w : Nat → Word) (n : Nat) (f0 f1 : Bool) : List Word :=
  (List.range ((n + 63) / 64)).map fun i => if f0 then (if f1 then ~~~0#64 else ~~~(w i)) else if f1 then w i else 0#64

/-- 564-586: `𝕨` of booleans. `list` if `𝕩` has rank 1. -/
def selectBits {α} (w : Nat → Word) (n : Nat) (list : Bool) (x : Src α) (xn : Nat) (junk : Nat → Word) (d : Nat → α) : Option (Out (Res α)) :=
  let bytes := selectInts .i8 (bitInts w n) x xn junk d
  let gen := generic true ((bitInts w n).map some) x xn junk d
  let sel (xs : List α) : Option (Out (Res α)) :=
    (xs[0]?).bind fun e0 =>
    if xn < 2 then if anyBit w n then some .err else some (.ok (.elems (bitSel w n e0 e0)))
    else (xs[1]?).map fun e1 => .ok (.elems (bitSel w n e0 e1))
  match x with
  | .bits x =>
    if !list then bytes
    else if xn < 2 then if anyBit w n then some .err else some (.ok (.bits (bitSelBits w n (bitF x 0) (bitF x 0))))
    else some (.ok (.bits (bitSelBits w n (bitF x 0) (bitF x 1))))
  | .units _ xs => if list then sel xs else bytes
  | .objs xs => if list then sel xs else gen
  | .objCells _ _ => gen
  | .cells bits csz _ => if csz * bits % 2^32 < 128 then bytes else gen
  | .bitCells csz _ => if csz < 128 then bytes else gen

/-- 562-598, after 𝕨 was squeezed if it had to. -/
def selectBy {α} (w : Counts) (list : Bool) (x : Src α) (xn : Nat) (junk : Nat → Word) (d : Nat → α) : Option (Out (Res α)) :=
  match w with
  | .bit w n => selectBits w n list x xn junk d
  | .ints t ws => selectInts t ws x xn junk d
  | .any ws => generic false ws x xn junk d

/-- Elements as bits: `cpyBitArr`. -/
def packBits (bs : List Bool) : List Word := (List.range ((bs.length + 63) / 64)).map fun i => (BitVec.ofBoolListLE ((bs.drop (64 * i)).take 64)).setWidth 64

/-- `select_c2` from the `switch` on, 562-604: `fl` if `𝕨` has the flag `fl_squoze`, and `sq` is `squeeze_numTry`. -/
def selectMany {α} (sq : Counts → Counts) (fl list : Bool) (w : Counts) (x : Src α) (xn : Nat) (junk : Nat → Word) (d : Nat → α) : Option (Out (Res α)) :=
  match w with
  | .any ws => if fl then generic false ws x xn junk d else selectBy (sq (.any ws)) list x xn junk d
  | w => selectBy w list x xn junk d

/-- `taga(cpyBitArr(r))`. -/
def toBits {α} : Res Bool → Option (Out (Res α))
  | .elems bs => some (if bs.length > bitMax then .err else .ok (.bits (packBits bs)))
  | _ => none

/-- 510-523: whether cells of `csz` booleans, not in whole bytes, are widened before they are selected. -/
def widens (wia csz xn : Nat) (d1 : Bool) : Bool := decide (wia ≥ 4 ∧ csz < 128 ∧ (if csz > 64 then wia / 2 ≥ xn else wia ≥ xn / 2)) && d1

/-- `select_c2`, 385-604, with two or more indices from a non-empty `𝕩`. `d1` is `arrD1` of the type of `𝕨`. The case of boolean cells that
are widened first (522-529), given by `widens`, is left out. -/
def selectWide {α} (sq : Counts → Counts) (fl d1 list : Bool) (w : Counts) (x : Src α) (xn : Nat) (junk : Nat → Word) (d : Nat → α) : Option (Out (Res α)) :=
  match x with
  | .bits x =>
    if w.len ≥ 256 ∧ d1 ∧ w.len / 4 ≥ xn then
      (selectMany sq fl list w (.units 1 (listF x xn)) xn junk fun _ => false).bind fun
        | .err => some .err
        | .ok r => toBits r
    else selectMany sq fl list w (.bits x) xn junk d
  | x => selectMany sq fl list w x xn junk d

/-- An empty array like `x`. -/
def emptyOf {α} : Src α → Res α
  | .bits _ => .bits []
  | .bitCells _ _ => .bits []
  | _ => .elems []

/-- `select_c2`, 385-604: `xn` is `*SH(x)`. A number as `𝕨` is a list of one. With no cells in `𝕩`, `select_depth2_impl` reports that the index is
out of bounds. -/
def selectC2 {α} (sq : Counts → Counts) (fl d1 list : Bool) (w : Counts) (x : Src α) (xn : Nat) (junk : Nat → Word) (d : Nat → α) : Option (Out (Res α)) :=
  match w.elems with
  | [] => some (.ok (emptyOf x))
  | [v] => selectOne v x xn junk
  | _ => if xn = 0 then some .err else selectWide sq fl d1 list w x xn junk d

end Verif.Select
