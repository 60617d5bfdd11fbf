import Verif.Merge.Spec
import Verif.Append.Model
/-!
# Model of merging arrays

`/repo/src/utils/mut.h` 240-278 and `/repo/src/utils/mut.c` 530-783 (`ApdMut`), and `bqn_merge`, `/repo/src/core/stuff.c` 480-503: `>𝕩`, `[…]`, and the results of `˘` and `⎉`, one after the other,
written to one array, whose element type is changed when the next one doesn't fit.

`none` is undefined behaviour: a read or write outside of memory, a failing `assert`, or a result with memory that nothing was written to. Reference counts are left out. Fills of
generic arrays are only told apart (`fillEqual`); an array without a known fill has `none`. Sizes have 32 bits. `bad` is what converting a double outside of the range of an integer gives, and `junk` the
contents of fresh memory.
-/
namespace Verif.Merge
open Verif.Squeeze (Val El Data selfTy)
open Verif.Append (elOr fresh write copyTo single storable len isNumEl isChrEl)
open Verif.Rotate (prod)

/-- A fill element: `0`, `' '`, or an array. -/
inductive Fill
  | num
  | chr
  | other (id : Nat)
deriving DecidableEq

/-- An array: `SH`, the elements, and the fill that a generic array stores. -/
structure Arr where
  sh : List Nat
  data : Data
  fill : Option Fill

/-- A value that is appended. -/
inductive Cell
  | atom (v : Val)
  | arr (a : Arr)

/-- What it is to the user. -/
def Cell.part : Cell → Part
  | .atom v => ⟨[], [v]⟩
  | .arr a => ⟨a.sh, a.data.elems⟩

/-- `getFillR` of an array, `core/fillarr.h` 50-66. -/
def Arr.getFill (a : Arr) : Option Fill :=
  if isNumEl a.data.ty then some .num else if isChrEl a.data.ty then some .chr else a.fill

/-- `getFillR`. -/
def Cell.getFill : Cell → Option Fill
  | .atom (.num _) => some .num
  | .atom (.chr _) => some .chr
  | .atom (.other _) => none
  | .arr a => a.getFill

/-- `isArr(x)? TI(x,elType) : selfElType(x)`, 755. -/
def Cell.ty (bad : BitVec 64 → BitVec 32) : Cell → El
  | .atom v => selfTy bad v
  | .arr a => a.data.ty

/-- What `m->apd` is, apart from the element type. -/
inductive Mode
  | sh0 | sh1 | sh2 | shE | tot
deriving DecidableEq

/-- `ApdMut` after the first append: `sh` is the shape of `m->obj`, `buf` its memory, `pos` the number of elements written; `csh`, `cia` and `cr` describe the cells;
`fillEnd` is whether `m->end` is `apd_fill_end`. -/
structure Run where
  mode : Mode
  sh : List Nat
  csh : List Nat
  cia : Nat
  cr : Nat
  buf : Data
  pos : Nat
  fill : Option Fill
  fillEnd : Bool

/-- The state of `ApdMut`; an error that is given at the end keeps its place in `m->end`. -/
inductive St
  | run (r : Run)
  /-- `apd_sh_err` -/
  | shapes
  /-- `apd_rnk_err` -/
  | rank
  /-- `thrOOM()` -/
  | oom

/-- `mut_make_arr`, 4-18: whether an array of `n` elements of this type is made. `CHECK_BITARR_IA`, and `CHECK_IA` in `m_harrUp`. -/
def room (t : El) (n : Nat) : Bool :=
  match t with
  | .bit => n ≤ 4294967295 - 65
  | .B => n < 4294967295
  | _ => true

/-- `TARR` in 621-624: whether elements of type `xe` are copied into memory of type `t` as it is. -/
def fitsAs (t xe : El) : Bool :=
  match t with
  | .bit => xe = .bit
  | .i8 => xe.rank ≤ El.i8.rank
  | .i16 => xe.rank ≤ El.i16.rank
  | .i32 => xe.rank ≤ El.i32.rank
  | .f64 => xe.rank ≤ El.f64.rank
  | .c8 => xe = .c8
  | .c16 => xe.rank ≥ El.c8.rank ∧ xe.rank ≤ El.c16.rank
  | .c32 => xe.rank ≥ El.c8.rank ∧ xe.rank ≤ El.c32.rank
  | .B => true

/-- `APD_OR_FILL_1`, 575-578; other element types have no fill to keep. -/
def orFill (r : Run) (x : Cell) : Run :=
  if r.buf.ty = .B then
    match r.fill with
    | none => r
    | some f0 => if x.getFill = some f0 then r else { r with fill := none }
  else r

/-- `apd_widen`, 754-783, without the call at its end; `none` at the asserts. -/
def widen (bad : BitVec 64 → BitVec 32) (junk : Nat → BitVec 64) (r : Run) (x : Cell) : Option St :=
  let pe := r.buf.ty
  let re := elOr (x.ty bad) pe
  if pe = re ∨ pe = .B then none
  else
    let cf := if isNumEl pe then Fill.num else Fill.chr
    let r := if re = .B then (if x.getFill = some cf then { r with fill := some cf, fillEnd := true } else { r with fill := none }) else r
    let tia := len r.buf
    if room re tia = false then some .oom
    else (copyTo bad re (Append.sub 0 r.pos r.buf)).bind fun d => (write (fresh re junk tia) 0 d).map fun b => .run { r with buf := b }

/-- `COPY0_TO` in `APD_MK0`, 593-595: append the elements of an array. -/
def putArr (bad : BitVec 64 → BitVec 32) (r : Run) (d : Data) : Option St :=
  (copyTo bad r.buf.ty d).bind fun e => (write r.buf r.pos e).map fun b => .run { r with buf := b, pos := r.pos + len d }

/-- `WATOM` in `APD_WATOM`, 599-604: append an element. -/
def putAtom (bad : BitVec 64 → BitVec 32) (r : Run) (v : Val) : Option St :=
  (single bad r.buf.ty v).bind fun e => (write r.buf r.pos e).map fun b => .run { r with buf := b, pos := r.pos + 1 }

/-- `APD_MK0` after its checks, 591-595. After widening the function for the new type is called; it has the same checks, and would widen again when the elements still don't
fit, which is `none` here. -/
def appendArr (bad : BitVec 64 → BitVec 32) (junk : Nat → BitVec 64) (filled : Bool) (r : Run) (a : Arr) : Option St :=
  if fitsAs r.buf.ty a.data.ty then putArr bad (if filled then orFill r (.arr a) else r) a.data
  else (widen bad junk r (.arr a)).bind fun
    | .run r => if fitsAs r.buf.ty a.data.ty then putArr bad (if filled then orFill r (.arr a) else r) a.data else none
    | s => some s

/-- `APD_WATOM`, with `arr` the value that is widened for, 599-604. -/
def appendAtom (bad : BitVec 64 → BitVec 32) (junk : Nat → BitVec 64) (filled : Bool) (r : Run) (v : Val) (arr : Cell) : Option St :=
  let r := if filled then orFill r arr else r
  if storable bad r.buf.ty v then putAtom bad r v
  else (widen bad junk r arr).bind fun
    | .run r => let r := if filled then orFill r arr else r; if storable bad r.buf.ty v then putAtom bad r v else none
    | s => some s

/-- `m->apd(m, x)` after the first one: `apd_sh0_E`, `apd_sh1_E`, `apd_sh2_E`, `apd_tot_E`, 588-618, and `apd_shE_T`, 627-628. -/
def append (bad : BitVec 64 → BitVec 32) (junk : Nat → BitVec 64) (r : Run) (x : Cell) : Option St :=
  match r.mode, x with
  | .sh0, .atom v => appendAtom bad junk true r v x
  | .sh0, .arr a =>
    if a.sh.length ≠ 0 then some .shapes
    else match a.data.elems with
      | [] => none
      | v :: _ => appendAtom bad junk true r v x
  | .sh1, .atom _ => some .shapes
  | .sh1, .arr a => if a.sh.length ≠ 1 ∨ r.cia ≠ len a.data then some .shapes else appendArr bad junk true r a
  | .sh2, .atom _ => some .shapes
  | .sh2, .arr a => if a.sh.length ≠ r.cr ∨ r.csh ≠ a.sh then some .shapes else appendArr bad junk true r a
  | .shE, .atom _ => some .shapes
  | .shE, .arr a => if a.sh.length ≠ r.cr ∨ r.csh ≠ a.sh then some .shapes else some (.run r)
  | .tot, .atom v => appendAtom bad junk false r v x
  | .tot, .arr a => if len a.data = 0 then some (.run r) else appendArr bad junk false r a

/-- Any later append: 533, `apd_fail_apd` does nothing. -/
def step (bad : BitVec 64 → BitVec 32) (junk : Nat → BitVec 64) (s : St) (x : Cell) : Option St :=
  match s with
  | .run r => append bad junk r x
  | s => some s

/-- `apd_sh_init`, 654-721, with `fr` the leading axes of the result. -/
def shInit (bad : BitVec 64 → BitVec 32) (junk : Nat → BitVec 64) (fr : List Nat) (x : Cell) : Option St :=
  let ria := prod fr
  let fill : Option Fill := if x.ty bad = .B then x.getFill else none
  let fillEnd : Bool := x.ty bad = .B
  match x with
  | .atom v =>
    let xe := selfTy bad v
    if room xe ria = false then some .oom
    else appendAtom bad junk true ⟨.sh0, fr, [], 0, 0, fresh xe junk ria, 0, fill, fillEnd⟩ v x
  | .arr a =>
    let xr := a.sh.length
    let xe := a.data.ty
    if xr = 0 then
      if room xe ria = false then some .oom
      else putArr bad ⟨.sh0, fr, [], 0, 0, fresh xe junk ria, 0, fill, fillEnd⟩ a.data
    else if fr.length + xr > 255 then some .rank
    else
      let xia := len a.data
      let tia := ria * xia
      if tia ≥ 2^32 then some .oom
      else if room xe tia = false then some .oom
      else
        let mode := if xia = 0 then Mode.shE else if xr = 1 then .sh1 else .sh2
        let csh := if fr.length + xr > 1 then a.sh else [xia]
        putArr bad ⟨mode, fr ++ a.sh, csh, xia, xr, fresh xe junk tia, 0, fill, fillEnd⟩ a.data

/-- `m->end`: `apd_ret_end` and `apd_fill_end`, 633-637. Memory that nothing was written to isn't a result. The fill of an array that isn't generic isn't stored. -/
inductive Out
  | ok (a : Arr)
  | shapes
  | rank
  | oom
  /-- `getFillE` -/
  | noFill

def finish : St → Option Out
  | .run r => if r.pos = len r.buf then some (.ok ⟨r.sh, r.buf, if r.buf.ty = .B ∧ r.fillEnd = true then r.fill else none⟩) else none
  | .shapes => some .shapes
  | .rank => some .rank
  | .oom => some .oom

/-- `m_unit` and `cpyWithShape` in 727-731: an atom is stored as an array with its own element type. -/
def unit (bad : BitVec 64 → BitVec 32) (v : Val) : Option Arr :=
  (single bad (selfTy bad v) v).map fun d => ⟨[], d, none⟩

/-- `apd_reshape`, 723-752: the only append. -/
def reshape (bad : BitVec 64 → BitVec 32) (fr : List Nat) (x : Cell) : Option Out :=
  (match x with
    | .atom v => unit bad v
    | .arr a => some a).bind fun a =>
  if fr.length > 0 then
    if fr.length + a.sh.length > 255 then some .rank
    else if fr.length + a.sh.length ≤ 1 then some (.ok { a with sh := [len a.data] })
    else some (.ok { a with sh := List.replicate fr.length 1 ++ a.sh })
  else some (.ok a)

/-- `M_APD_SH_N`, `APD` for every part, and `APD_SH_GET`, in `mut.h` 273-277. -/
def mergeParts (bad : BitVec 64 → BitVec 32) (junk : Nat → BitVec 64) (fr : List Nat) : List Cell → Option Out
  | [] => none
  | [x] => reshape bad fr x
  | x :: y :: xs => (shInit bad junk fr x).bind fun s => ((y :: xs).foldlM (step bad junk) s).bind finish

/-- `apd_tot_init`, 646-653, with room for `tia` elements. -/
def totInit (bad : BitVec 64 → BitVec 32) (junk : Nat → BitVec 64) (tia : Nat) (x : Cell) : Option St :=
  let xe := x.ty bad
  if room xe tia = false then some .oom
  else append bad junk ⟨.tot, [], [], 0, 0, fresh xe junk tia, 0, none, false⟩ x

/-- `M_APD_TOT`, `APD` for every part, and `APD_TOT_GET`, in `mut.h` 271-278: the elements of the result. -/
def joinParts (bad : BitVec 64 → BitVec 32) (junk : Nat → BitVec 64) (tia : Nat) : List Cell → Option Out
  | [] => none
  | x :: xs => (totInit bad junk tia x).bind fun s => (xs.foldlM (step bad junk) s).bind finish

/-- The argument of `>`: an array with `TI(x,arrD1)`, whose elements are all atoms; a generic array with elements; or an empty generic array, with its fill if that is known. -/
inductive Arg
  | typed (a : Arr)
  | cells (fr : List Nat) (x : Cell) (xs : List Cell)
  | empty (fr : List Nat) (fill : Option Cell)

/-- The shape of the argument. -/
def Arg.sh : Arg → List Nat
  | .typed a => a.sh
  | .cells fr _ _ => fr
  | .empty fr _ => fr

/-- The elements of the argument. -/
def Arg.elems : Arg → List Cell
  | .typed a => a.data.elems.map .atom
  | .cells _ x xs => x :: xs
  | .empty _ _ => []

/-- `bqn_merge`, `core/stuff.c` 480-503. `emptyWithFill` may give an empty array that isn't generic and has this fill. -/
def bqnMerge (bad : BitVec 64 → BitVec 32) (junk : Nat → BitVec 64) : Arg → Option Out
  | .typed a => some (.ok a)
  | .empty _ none => some .noFill
  | .empty fr (some (.atom v)) => some (.ok ⟨fr, .B [], (Cell.atom v).getFill⟩)
  | .empty fr (some (.arr f)) => if fr.length + f.sh.length > 255 then some .rank else some (.ok ⟨fr ++ f.sh, .B [], f.getFill⟩)
  | .cells fr x xs => mergeParts bad junk fr (x :: xs)

end Verif.Merge
