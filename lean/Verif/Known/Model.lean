import Verif.Known.Spec
import Verif.Cells.Model
/-!
# Model of the functions that Cells and Rank recognise

`/repo/src/builtins/cells.c`: the `switch` of `for_cells_c1`, 437-593, and of `for_cells_AS`, `for_cells_SA` and `for_cells_AA`, 688-873, with what they call. Where the code goes on to call the operand on
each cell the model goes on with `Verif.Cells.forCells1` and so on. Arrays are lists; how elements are stored is `Info`. Not modelled: `⍉`, `𝔽˘`, arithmetic in `´`, `˝` and `` ` `` on booleans and more than one cell
(`fold_rows_bit`, `fold_rows`, `scan_rows_bit`), `⊏` with an array of indices, `↑`, `↓`, dyadic `⌽`, and arithmetic. Those are as if they weren't recognised. `none` is an error of a function.
-/
namespace Verif.Known
open Verif.Cells (Arr Val Operand Out shProd slice forCells1 forCellsAS forCellsSA forCellsAA)
open Verif.Insert (Op COp)
open Verif.Rotate (prod)
variable {E : Type}

/-- What the code knows of an array: its fill, whether by its type no element is an array (`TI(x,arrD1)`), whether its element type is `el_B` or `el_bit`, and the logarithms of the widths in bits. -/
structure Info (E : Type) where
  fill : Option E
  flat : Bool
  boxed : Bool
  bit : Bool
  /-- `elwBitLog(TI(x,elType))` -/
  ewl : Nat
  /-- `arrTypeBitsLog(TY(x))` -/
  wl : Nat

/-- `CTZ` of a number that isn't 0. -/
def ctz : Nat → Nat → Nat
  | 0, _ => 0
  | fuel+1, n => if n % 2 = 1 then 0 else ctz fuel (n / 2) + 1

/-- `multWidthLog`, `core/arrFns.h` 84-87. For `n` of 0 the test is of `0 & -1`. -/
def multWidthLog (n lw : Nat) : Nat := if n &&& (n - 1) ≠ 0 then 7 else lw + ctz 32 (n ||| (128 >>> lw))

/-- The elements one by one, `none` outside of the array. -/
def gather (els : List E) (is : List Nat) : Option (List E) := is.mapM (els[·]?)

/-- `select_cells_single`, `select.c` 848-905. Memory that is filled from the beginning to the end is a list that is put together. Copies of words of `1<<xl` bits are copies of `csz` elements. -/
def selectSingle (io : Info E) (ind : Nat) (x : Arr E) (cam l csz : Nat) : Option (List E) :=
  if l = 1 then some x.els
  else
    let xl := multWidthLog csz io.ewl
    if xl ≥ 7 ∨ (xl < 3 ∧ xl > 0) then
      let jump := l * csz % 2^32
      ((List.range cam).mapM fun i => gather x.els ((List.range csz).map fun j => (csz * ind + i * jump) % 2^32 + j)).map List.flatten
    else if io.boxed ∨ xl = 0 then gather x.els ((List.range cam).map fun i => (i * l + ind) % 2^32)
    else ((List.range cam).mapM fun i => gather x.els ((List.range csz).map fun j => (i * l + ind) % 2^32 * csz + j)).map List.flatten

/-- An array if there is one; memory outside of an array is undefined. -/
def arrOf (sh : List Nat) : Option (List E) → Out E
  | some els => .ok ⟨sh, els⟩
  | none => .undef

/-- `select_cells`, 236-250. -/
def selectCells (io : Info E) (ind : Nat) (x : Arr E) (cam k : Nat) : Out E :=
  arrOf (x.sh.take k ++ x.sh.drop (k + 1)) (selectSingle io ind x cam (x.sh[k]?.getD 0) (shProd (x.sh.drop (k + 1))))

/-- `pick_cells`, 251-261. -/
def pickCells (io : Info E) (ind : Nat) (x : Arr E) (cam k : Nat) : Out E :=
  arrOf (x.sh.take k) (selectSingle io ind x cam (shProd (x.sh.drop k)) 1)

/-- `toCells` and `toKCells` for at least one cell, 161-200. -/
def toKCells (box : Arr E → E) (x : Arr E) (cam k : Nat) : Out E :=
  let csz := Verif.Cells.csz x k
  arrOf (x.sh.take k) (((List.range cam).mapM fun i => slice x k csz (i * csz % 2^32)).map fun cs => cs.map box)

/-- The loop for `el_B` in `shift_cells`, 306-309: `p` has 32 bits. `none` if it doesn't end. -/
def setLoop (f : E) (xia csz : Nat) : Nat → Nat → List E → Option (List E)
  | 0, _, _ => none
  | fuel+1, p, r => if p < xia then setLoop f xia csz fuel ((p + csz) % 2^32) (r.set p f) else some r

/-- `set_column_typed`, 263-289: the loops for each type, with `p` of 64 bits, and the one for many booleans in short rows, with the mask `m` that is `stride` elements again and again. -/
def setColumn (bit : Bool) (f : E) (p stride n : Nat) (r : List E) : List E :=
  if bit ∧ stride < 64 ∧ n > 64 then r.mapIdx fun i e => if i % stride = p then f else e
  else (List.range n).foldl (fun r i => r.set (p + i * stride) f) r

/-- `shift_cells`, 291-314. `boxed` and `bit` are of the result. `d` is in fresh memory. -/
def shiftCells (boxed bit : Bool) (d f : E) (x : Arr E) (cam csz : Nat) (after : Bool) : Out E :=
  let xia := x.els.length
  if csz = 1 then .ok ⟨x.sh, List.replicate xia f⟩
  else
    let p := if after then csz - 1 else 0
    let r := if after then x.els.drop 1 ++ [d] else d :: x.els.take (xia - 1)
    arrOf x.sh (if boxed then setLoop f xia csz (2^32) p r else some (setColumn bit f p csz cam r))

/-- `reverse_inds_64`, 431. -/
def reverseInds : List Nat := [63,62,61,60,59,58,57,56,55,54,53,52,51,50,49,48,47,46,45,44,43,42,41,40,39,38,37,36,35,34,33,32,31,30,29,28,27,26,25,24,23,22,21,20,19,18,17,16,15,14,13,12,11,10,9,8,7,6,5,4,3,2,1,0]
  ++ List.replicate 64 0

/-- `select_rows_direct`, `select.c` 917-1010, for indices that are in the row: the comment there is what's modelled. -/
def selectRows (x : Arr E) (csz cam : Nat) (inds : List Nat) : Option (List E) :=
  ((List.range cam).mapM fun i => inds.mapM fun j => if j < csz then x.els[i * csz + j]? else none).map List.flatten

/-- `C2(shape, sh, v)`: elements again and again. -/
def reshape (sh : List Nat) (els : List E) : Option (List E) := (List.range (prod sh)).mapM fun i => els[i % els.length]?

/-- `const_cells`, 402-422. -/
def constCells (x : Arr E) (k : Nat) (v : Val E) : Out E :=
  if v.sh = [] then
    if k ≠ 1 then arrOf (x.sh.take k) (reshape (x.sh.take k) v.els)
    else arrOf [x.sh[0]?.getD 0] (reshape [x.sh[0]?.getD 0] v.els)
  else if v.sh.length + k > 255 then .rank
  else arrOf (x.sh.take k ++ v.sh) (reshape (x.sh.take k ++ v.sh) v.els)

/-- `insert_cells_join`, `fold.c` 656-672. The rank `k+1` fits. -/
def insertCellsJoin (x : Arr E) (cr k : Nat) : Option (Out E) :=
  let xk := x.sh[k]?.getD 0
  if cr ≤ 1 then if xk = 0 then none else some (.ok x)
  else some (.ok ⟨x.sh.take k ++ (xk * x.sh[k + 1]?.getD 0 % 2^32) :: x.sh.drop (k + 2), x.els⟩)

/-- `insert_cells_identity`, `fold.c` 673-687; `reshape_one` puts one element everywhere. -/
def insertCellsIdentity (box : Arr E → E) (x : Arr E) (ident : Option (Val E)) (k : Nat) : Option (Out E) :=
  match ident with
  | none => none
  | some (.atom e) =>
    some (.ok ⟨x.sh.take k ++ x.sh.drop (k + 1), List.replicate (shProd (x.sh.take k) * shProd (x.sh.drop (k + 1)) % 2^32) e⟩)
  | some (.arr a) => some (.ok ⟨x.sh.take k, List.replicate (shProd (x.sh.take k)) (box a)⟩)

/-- One row of `scan_cells_stride1`, 113-114. -/
def scanRow (f : E → E → Option E) : E → List E → Option (List E)
  | _, [] => some []
  | p, x :: xs => do
    let r ← f p x
    let rs ← scanRow f r xs
    pure (r :: rs)

/-- `scan_cells_stride1`, 105-118: rows of `m` elements. -/
def scanStride1 (f : E → E → Option E) (m : Nat) : Nat → List E → Option (List E)
  | 0, _ => some []
  | _, [] => some []
  | fuel+1, x :: xs => do
    let rs ← scanRow f x (xs.take (m - 1))
    let more ← scanStride1 f m fuel (xs.drop (m - 1))
    pure (x :: rs ++ more)

/-- The functions that `for_cells_c1` recognises. The ones with `other` are recognised for some arrays only. -/
inductive Known1 (E : Type)
  | tack
  | lt (box : Arr E → E)
  | select
  | pick (val : E → Val E)
  | couple
  | shape
  | shift (after : Bool)
  | reverse
  | sortLike (other : Fn1 E)
  /-- the result for one cell, 0 or 1 -/
  | gradeLike (e : E) (other : Fn1 E)
  | undoCouple (other : Fn1 E)
  | const (v : Val E)
  | insert (box : Arr E → E) (op : COp Option E)
  | fold (val : E → Val E) (op : Op Option E)
  | scan (op : Op Option E)

/-- What the operand does when it's called. In cells of fills there is a fill. -/
def Known1.op (io : Info E) (fill : E) : Known1 E → Operand Option (Val E) E
  | .tack => pureOp same
  | .lt box => pureOp (enclose box)
  | .select => pureOp firstCell
  | .pick val => pureOp (pickFirst val)
  | .couple => pureOp solo
  | .shape => pureOp deshape
  | .shift after => ⟨nudge after io.fill, some (nudge after (some fill))⟩
  | .reverse => pureOp reverseCells
  | .sortLike o => pureOp (keepTrivial o)
  | .gradeLike e o => pureOp (numberTrivial e o)
  | .undoCouple o => pureOp (unsolo o)
  | .const v => pureOp (always v)
  | .insert _ op => pureOp (insertFn op)
  | .fold val op => pureOp (foldFn val op)
  | .scan op => pureOp (scanFn op)

/-- The identity of an operand. -/
def identV : COp Option E → Option (Val E)
  | .perv _ i => i.map .atom
  | .fn _ i => i
  | _ => none

/-- Whether an operand is a function. -/
def isFunC : COp Option E → Bool
  | .const _ => false
  | .md => false
  | _ => true
def isJoin : COp Option E → Bool
  | .join => true
  | _ => false
def isFunE : Op Option E → Bool
  | .const _ => false
  | .md => false
  | _ => true

/-- `for_cells_c1`, 433-625. -/
def knownCells1 (fill : Arr E → E) (io : Info E) (d : E) (p : Known1 E) (x : Arr E) (k : Nat) : Option (Out E) :=
  let xr := x.sh.length
  let cr := xr - k
  let cam := shProd (x.sh.take k)
  let xk := x.sh[k]?.getD 0
  let ia := x.els.length
  let generic := forCells1 fill (p.op io (fill x)) x k
  match p with
  | .tack => some (.ok x)
  | .lt box => if cam = 0 then generic else some (toKCells box x cam k)
  | .select => if ia = 0 then generic else if cr = 0 then generic else some (selectCells io 0 x cam k)
  | .pick _ => if ia = 0 then generic else if !io.flat then generic else some (pickCells io 0 x cam k)
  | .couple => if xr = 255 then some .rank else some (.ok ⟨x.sh.take k ++ 1 :: x.sh.drop k, x.els⟩)
  | .shape =>
    if cr = 1 then some (.ok x)
    else if k + 1 > 255 then some .undef -- `m_shArr(0)` and writes of the lengths outside of it
    else some (.ok ⟨x.sh.take k ++ [shProd (x.sh.drop k)], x.els⟩)
  | .shift after =>
    if ia = 0 then some (.ok x)
    else if cr ≠ 1 ∧ (cr = 0 ∨ ¬ (xk = 1 ∨ shProd (x.sh.drop (k + 1)) = 1)) then generic
    else match io.fill with
      | none => generic
      | some f => some (shiftCells io.boxed io.bit d f x cam xk after)
  | .reverse =>
    if cr = 0 then generic
    else if xk ≤ 1 ∨ ia = 0 then some (.ok x)
    else if cr = 1 ∧ xk ≤ 64 ∧ !io.bit ∧ xk ≤ (128 * 8) >>> io.wl then some (arrOf x.sh (selectRows x xk cam ((reverseInds.drop (64 - xk)).take xk)))
    else generic
  | .sortLike _ => if cr = 0 then generic else if xk ≤ 1 then some (.ok x) else generic
  | .gradeLike e _ =>
    if cr = 0 then generic
    else if xk ≤ 1 then some (.ok ⟨x.sh.take (k + 1), List.replicate (xk * cam % 2^32) e⟩)
    else generic
  | .undoCouple _ =>
    if cr ≠ 0 ∧ xk = 1 then
      if xr = 2 then some (.ok ⟨[ia], x.els⟩) else some (.ok ⟨x.sh.take k ++ x.sh.drop (k + 1), x.els⟩)
    else generic
  | .const v => some (constCells x k v)
  | .insert box op =>
    if cr > 0 ∧ isFunC op then
      if isJoin op then insertCellsJoin x cr k
      else if xk = 0 then insertCellsIdentity box x (identV op) k
      else if io.boxed then generic
      else match op with
        | .ltack => some (selectCells io 0 x cam k)
        | .rtack => some (selectCells io (xk - 1) x cam k)
        | _ => if xk = 1 then some (selectCells io 0 x cam k) else generic
    else generic
  | .fold val op =>
    if cr = 1 ∧ isFunE op then
      if xk = 0 then
        match op.ident with
        | none => none
        | some e => some (.ok ⟨x.sh.take k, List.replicate (shProd (x.sh.take k)) e⟩)
      else if io.boxed then generic
      else match op with
        | .ltack => some (selectCells io 0 x cam k)
        | .rtack => some (selectCells io (xk - 1) x cam k)
        | _ => if xk = 1 then some (selectCells io 0 x cam k) else generic
    else generic
  | .scan op =>
    if cr = 0 then generic
    else if xk ≤ 1 ∨ ia = 0 then some (.ok x)
    else if !isFunE op then generic
    else match op with
      | .rtack => some (.ok x)
      | _ =>
        if (cr = 1 ∨ cam * xk % 2^32 = ia) ∧ xk ≤ 6 then
          (scanStride1 op.run xk ia x.els).map fun els => .ok ⟨x.sh, els⟩
        else generic

/-- `WRAP`, `core/stuff.h` 75: `i` has 64 bits. `none` is when the index is wrong. -/
def wrapIndex (i : Int) (l : Nat) : Option Nat :=
  let u := (i % 2^64).toNat
  if u ≥ l then
    let v := (u + l) % 2^64
    if v ≥ l then none else some (v % 2^32)
  else some (u % 2^32)

/-- `join_cells`, `transpose.c` 100-160, for cells of any type: each of the cells of `w` and then one of `x`, until `ia` elements are there; `ia` has 32 bits. Types, and the loop for bits, which does the same, aren't modelled. -/
def joinCells (w x : Arr E) (k : Nat) : Option (List E) :=
  let wcsz := shProd (w.sh.drop k)
  let xcsz := shProd (x.sh.drop k)
  let ia := (w.els.length + x.els.length) % 2^32
  let step := (wcsz + xcsz) % 2^32
  if ia = 0 then some []
  else if step = 0 then none
  else ((List.range ((ia + step - 1) / step)).mapM fun i => do
    let a ← gather w.els ((List.range wcsz).map (i * wcsz + ·))
    let b ← gather x.els ((List.range xcsz).map (i * xcsz + ·))
    pure (a ++ b)).map List.flatten

/-- `interleave_cells`, 28-37, for an array with axes. -/
def interleaveCells (w x : Arr E) (k : Nat) : Out E :=
  if x.sh.length + 1 > 255 then .undef
  else arrOf (x.sh.take k ++ 2 :: x.sh.drop k) (joinCells w x k)

/-- `match_cells`, 319-344, after the tests of the types, which call the operand for cells instead. Elements are compared as values. -/
def matchCells [DecidableEq E] (bit : Bool → E) (ne : Bool) (w x : Arr E) (k len : Nat) : List E :=
  if w.sh.length ≠ x.sh.length ∨ (w.sh.length > k ∧ w.sh.drop k ≠ x.sh.drop k) then List.replicate len (bit ne)
  else
    let csz := shProd (w.sh.drop k)
    if csz = 0 then List.replicate len (bit !ne)
    else (List.range len).map fun i => bit (ne != ((w.els.drop (i * csz)).take csz == (x.els.drop (i * csz)).take csz))

/-- The functions that are recognised when there are two arguments. -/
inductive Known2 (E : Type)
  | ltack
  | rtack
  | const (v : Val E)
  | select (num : E → Option (Option Int)) (other : Fn2 E)
  | pick (num : E → Option (Option Int)) (val : E → Val E) (other : Fn2 E)
  | couple
  | shift (after : Bool) (other : Fn2 E)
  | match_ (bit : Bool → E) (ne : Bool)

/-- What the operand does when it's called. -/
def Known2.op [DecidableEq E] : Known2 E → Operand Option (Val E × Val E) E
  | .ltack => pureOp fun p => some p.1
  | .rtack => pureOp fun p => some p.2
  | .const v => pureOp (always v)
  | .select num o => pureOp (selectFn num o)
  | .pick num val o => pureOp (pickFn num val o)
  | .couple => pureOp Verif.Known.couple
  | .shift after o => pureOp (shiftFn after o)
  | .match_ bit ne => pureOp (matches_ bit ne)

/-- `unpack_unit`, 675-681. -/
def unpackUnit : Val E → Option E
  | .atom e => some e
  | .arr a => if a.sh.length ≠ 0 then none else a.els[0]?

/-- `for_cells_AS`, 683-714. -/
def knownAS [DecidableEq E] (fill : Arr E → E) (p : Known2 E) (w : Arr E) (wk : Nat) (x : Val E) : Option (Out E) :=
  let cam := shProd (w.sh.take wk)
  let generic := forCellsAS fill p.op w wk x
  if cam = 0 then generic
  else match p with
    | .ltack => some (.ok w)
    | .rtack => some (constCells w wk x)
    | .couple =>
      if w.sh.length = 1 then
        match unpackUnit x with
        | none => generic
        | some e => some (interleaveCells w ⟨[w.els.length], List.replicate w.els.length e⟩ 1)
      else generic
    | .const v => some (constCells w wk v)
    | _ => generic

/-- `for_cells_SA`, 715-823. `rboxed` and `rbit` are of `el_or(TI(x,elType), selfElType(w))`. -/
def knownSA [DecidableEq E] (fill : Arr E → E) (io : Info E) (rboxed rbit : Bool) (d : E) (p : Known2 E) (w : Val E) (x : Arr E) (xk : Nat) : Option (Out E) :=
  let cam := shProd (x.sh.take xk)
  let xcr := x.sh.length - xk
  let l := x.sh[xk]?.getD 0
  let generic := forCellsSA fill p.op w x xk
  if cam = 0 then generic
  else match p with
    | .rtack => some (.ok x)
    | .ltack => some (constCells x xk w)
    | .select num _ =>
      match w with
      | .arr _ => generic
      | .atom e =>
        match num e with
        | none => generic
        | some i => if xcr ≥ 1 then (i.bind fun i => wrapIndex i l).map fun j => selectCells io j x cam xk else generic
    | .couple =>
      if x.sh.length = 1 then
        match unpackUnit w with
        | none => generic
        | some e => some (interleaveCells ⟨[x.els.length], List.replicate x.els.length e⟩ x 1)
      else generic
    | .pick num _ _ =>
      match w with
      | .arr _ => generic
      | .atom e =>
        match num e with
        | none => generic
        | some i => if xcr = 1 ∧ io.flat then (i.bind fun i => wrapIndex i l).map fun j => pickCells io j x cam xk else generic
    | .shift after _ =>
      if xcr ≠ 1 then generic
      else match unpackUnit w with
        | none => generic
        | some e => if x.els.length = 0 then some (.ok x) else some (shiftCells rboxed rbit d e x cam l after)
    | .const v => some (constCells x xk v)
    | _ => generic

/-- `for_cells_AA`, 824-883. `typed` is whether `match_cells` goes on after its tests of the types. -/
def knownAA [DecidableEq E] (fill : Arr E → E) (typed : Bool) (p : Known2 E) (w : Arr E) (wk : Nat) (x : Arr E) (xk : Nat) : Option (Out E) :=
  let generic := forCellsAA fill p.op w wk x xk
  let xkM : Bool := xk > wk
  let k := if xkM then wk else xk
  let zk := if xkM then xk else wk
  let z := if xkM then x else w
  if w.sh.take k ≠ x.sh.take k then generic
  else
    let cam := shProd (w.sh.take k) * shProd ((z.sh.take zk).drop k) % 2^32
    if cam = 0 then generic
    else match p with
      | .rtack => if wk = xk then some (.ok x) else generic
      | .ltack => if wk = xk then some (.ok w) else generic
      | .match_ bit ne =>
        if wk = xk ∧ (typed ∨ ¬ (w.sh.length = x.sh.length ∧ w.sh.drop wk = x.sh.drop wk ∧ shProd (w.sh.drop wk) ≠ 0)) then some (.ok ⟨z.sh.take zk, matchCells bit ne w x wk cam⟩) else generic
      | .couple => if wk = xk ∧ w.sh.length = x.sh.length ∧ w.sh.drop wk = x.sh.drop wk then some (interleaveCells w x wk) else generic
      | .const v => some (constCells z zk v)
      | _ => generic

end Verif.Known
