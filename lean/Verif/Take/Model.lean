import Verif.Rotate.Model
import Verif.Take.Spec
/-!
# Model of Take and Drop

`/repo/src/builtins/sfns.c` 66-127 `take_head`, `take_impl`, 523-757 `takedrop_highrank`, `take_c2` and `drop_c2`, and `/repo/src/utils/mut.c` 177-203 `m_fillG`.
`none` is a read or write outside of memory. A slice of an array, and the array truncated in place, are modelled as a copy. Reference counts are left out, and so is the choice
of the type of the result (C12). Sizes are exact: that they don't wrap is C36. The fill is 0 when the argument has none (`PROPER_FILLS` is off).
-/
namespace Verif.Take
open Verif.Bits Verif.Slash Verif.Rep Verif.Select Verif.Under Verif.Rotate

/-- Arrays of one type: results in memory `M`, arguments in memory `X`. -/
structure Kind (M X α : Type) where
  /-- `MAKE_MUT_INIT(r, ia, type)`: not initialised. -/
  new : Nat → M
  /-- `mut_copyG(r, rs, x, xs, l)`. -/
  copy : (r : M) → (rs : Nat) → (x : X) → (xs l : Nat) → Option M
  /-- `mut_fillG(r, ms, v, l)`. -/
  fill : (r : M) → (ms : Nat) → α → (l : Nat) → Option M
  /-- The element at a position. -/
  get : M → Nat → Option α
  /-- The element of an argument at a position. -/
  getX : X → Nat → Option α

/-- mut.c 194-203: `for (usz i = 0; i < l; i++) p[i] = v;`, `p` at `ms`. -/
def fillElems {α} (v : α) : Nat → Nat → List α → Option (List α)
  | 0, _, m => some m
  | l + 1, ms, m => (wr m ms v).bind (fillElems v l (ms + 1))

/-- Arrays of numbers, characters or objects. -/
def elemKind {α} (d : Nat → α) : Kind (List α) (List α) α := ⟨fun n => fresh d n, fun r rs x xs l => memCpy x r rs xs l, fun r ms v l => fillElems v l ms r, fun m k => m[k]?, fun x k => x[k]?⟩

/-- `p[i]|= m` if `v`, else `p[i]&= ~m`. -/
def setMask (v : Bool) (p : List Word) (i : Nat) (m : Word) : Option (List Word) := (p[i]?).bind fun w => wr p i (if v then w ||| m else w &&& ~~~m)

/-- `m_fillG` for bits, mut.c 177-193. -/
def fillBits (v : Bool) (ms l : Nat) (p : List Word) : Option (List Word) :=
  let me := ms + l
  if ms >>> 6 = me >>> 6 then setMask v p (ms >>> 6) ((1#64 <<< (me % 64)) - (1#64 <<< (ms % 64)))
  else
    let m0 := (1#64 <<< (ms % 64)) - 1#64
    (setMask v p (ms >>> 6) (~~~m0)).bind fun p =>
    (fillElems (if v then BitVec.allOnes 64 else 0#64) (me >>> 6 - (ms >>> 6 + 1)) (ms >>> 6 + 1) p).bind fun p =>
    setMask v p (me >>> 6) ((1#64 <<< (me % 64)) - 1#64)

/-- Arrays of booleans. `m_fillG` also reads and writes the word after the last one when it fills up to a multiple of 64, so results have one word more here. -/
def bitKind (junk : Nat → Word) : Kind (List Word) (List Word) Bool :=
  ⟨fun n => fresh junk ((n + 63) / 64 + 1), fun r rs x xs l => bitCpy (fun i => x.getD i 0#64) r rs xs l, fun r ms v l => fillBits v ms l r, fun m k => getBit m k, fun m k => getBit m k⟩

/-- A result: a new array, or the argument with this shape. -/
inductive Res (M X : Type)
  | same (x : X) (sh : List Nat)
  | made (m : M) (sh : List Nat)

/-- Its shape. -/
def Res.shape {M X} : Res M X → List Nat
  | .same _ sh | .made _ sh => sh

/-- Its element at a position. -/
def Res.get {M X α} (K : Kind M X α) : Res M X → Nat → Option α
  | .same x _, k => K.getX x k
  | .made m _, k => K.get m k

/-- The size of the cells below the first axis, 699-706. -/
def cellSize : List Nat → Nat
  | _ :: c :: cell => prod (c :: cell)
  | _ => 1

/-- The shape of the result, 710-717: `n` and the rest of the shape of `𝕩`. -/
def resShape (n : Nat) : List Nat → List Nat
  | _ :: c :: cell => n :: c :: cell
  | _ => [n]

/-- `TI(x,slice)(x, s, l)`. -/
def slice {M X α} (K : Kind M X α) (x : X) (s l : Nat) (sh : List Nat) : Option (Res M X) := (K.copy (K.new l) 0 x s l).map (.made · sh)

/-- `take_c2` for an integer, 719-741 and 114-127. -/
def takeOne {M X α} (K : Kind M X α) (w : Int) (f : α) (x : X) (sh : List Nat) : Option (Res M X) :=
  let xia := prod sh
  let n := w * cellSize sh
  let rsh := resShape w.natAbs sh
  if 0 ≤ n then
    let ria := n.toNat
    if xia < ria then (K.copy (K.new ria) 0 x 0 xia).bind fun r => (K.fill r xia f (ria - xia)).map (.made · rsh)
    else slice K x 0 ria rsh
  else
    let n := n.natAbs
    if xia < n then (K.fill (K.new n) 0 f (n - xia)).bind fun r => (K.copy r (n - xia) x 0 xia).map (.made · rsh)
    else slice K x (xia - n) n rsh

/-- `drop_c2` for an integer, 742-762. -/
def dropOne {M X α} (K : Kind M X α) (w : Int) (x : X) (sh : List Nat) : Option (Res M X) :=
  let xia := prod sh
  let n := w * cellSize sh
  let rsh := resShape (match sh with | [] => 1 - w.natAbs | s :: _ => s - w.natAbs) sh
  if n < 0 then
    if (xia : Int) ≤ -n then some (.made (K.new 0) rsh) else slice K x 0 (xia + n).toNat rsh
  else if (xia : Int) ≤ n then some (.made (K.new 0) rsh)
  else slice K x n.toNat (xia - n.toNat) rsh

/-! ## `takedrop_highrank`, 523-690 -/

/-- An axis: `xshc`, `rsh->a[i]` and `wn[i]`. -/
structure Ax where
  xs : Nat
  rs : Nat
  neg : Bool
deriving DecidableEq

/-- The loop 559-573; `w` and `x` have an item for every axis. -/
def axes (take : Bool) : List Int → List Nat → List Ax
  | w :: ws, s :: sh =>
    let cwa := w.natAbs
    ⟨s, if take then cwa else if s ≤ cwa then 0 else s - cwa, w < 0⟩ :: axes take ws sh
  | _, _ => []

/-- `cellStart`: the last axis that changes. -/
def cellStart : List Ax → Option Nat
  | [] => none
  | a :: as => match cellStart as with
    | some i => some (i + 1)
    | none => if a.rs ≠ a.xs then some 0 else none

/-- An item of `ltv`, `lcv`, `rcv` and `xcv`. -/
structure Ctr where
  total : Nat
  cur : Nat
  rcv : Nat
  xcv : Nat

/-- The variables of the loop 617-648, with the counters of the axes that are done, the last axis first. -/
structure St where
  xcs : Nat
  rcs : Nat
  xs : Nat
  rs : Nat
  xi : Nat
  ri : Nat
  xSkip : Nat
  rSkip : Nat
  cellWrite : Nat
  ctrs : List Ctr

/-- 618-647, for the axis `i`. -/
def setupAxis (take : Bool) (cs i : Nat) (a : Ax) (s : St) : St :=
  let diff : Int := a.xs - a.rs
  let off : Int := if take ^^ a.neg then 0 else diff
  let pad : Bool := diff < 0
  let total := if pad then a.xs else a.rs
  let t : St :=
    { xcs := s.xcs * a.xs
      rcs := s.rcs * a.rs
      xs := if pad then s.xs else s.xs + s.xcs * diff.toNat
      rs := if pad then s.rs + s.rcs * (-diff).toNat else s.rs
      xi := if off > 0 then s.xi + off.toNat * s.xcs else s.xi
      ri := if off < 0 then s.ri + (-off).toNat * s.rcs else s.ri
      xSkip := s.xSkip
      rSkip := s.rSkip
      cellWrite := s.cellWrite
      ctrs := s.ctrs ++ [⟨total, total, s.rs, s.xs⟩] }
  if i = cs then
    let cellWrite := if pad then s.rcs * a.xs else t.rcs
    { t with
      xSkip := t.xcs
      rSkip := t.rcs
      cellWrite := cellWrite
      xs := t.xs + cellWrite
      rs := t.rs + cellWrite }
  else t

/-- 617-648, over the axes from the last one on. -/
def setup (take : Bool) (cs : Nat) : List Ax → St → St
  | [], s => s
  | a :: rest, s => setup take cs rest (setupAxis take cs rest.length a s)

/-- 659-665, after an axis has come to its end: `cr` is decremented first. -/
def carry : List Ctr → Option (List Ctr × Nat × Nat)
  | [] => none
  | c :: cs =>
    if c.cur - 1 = 0 then (carry cs).map fun (cs, d) => ({ c with cur := c.total } :: cs, d)
    else some ({ c with cur := c.cur - 1 } :: cs, c.rcv, c.xcv)

/-- 656-670: the new counters and the distances to move by, or `none` for `goto endCopy`. -/
def advance (rSkip xSkip : Nat) : List Ctr → Option (List Ctr × Nat × Nat)
  | [] => none
  | c :: cs =>
    if c.cur - 1 = 0 then (carry cs).map fun (cs, d) => ({ c with cur := c.total } :: cs, d)
    else some ({ c with cur := c.cur - 1 } :: cs, rSkip, xSkip)

/-- 651-671: the result and `pri`. -/
def copyLoop {M X α} (K : Kind M X α) (x : X) (anyFill : Bool) (f : α) (rSkip xSkip cw : Nat) : Nat → List Ctr → Nat → Nat → Nat → M → Option (M × Nat)
  | 0, _, _, _, _, _ => none
  | fuel + 1, cs, ri, xi, pri, r =>
    (if anyFill then (if ri ≠ pri then K.fill r pri f (ri - pri) else some r).map fun r => (r, ri + cw) else some (r, pri)).bind fun (r, pri) =>
    (K.copy r ri x xi cw).bind fun r =>
    match advance rSkip xSkip cs with
    | none => some (r, pri)
    | some (cs, dr, dx) => copyLoop K x anyFill f rSkip xSkip cw fuel cs (ri + dr) (xi + dx) pri r

/-- 597-675: the generic case. -/
def generic {M X α} (K : Kind M X α) (take : Bool) (as : List Ax) (cs : Nat) (f : α) (x : X) : Option M :=
  let ria := prod (as.map Ax.rs)
  let anyFill := as.any fun a => a.xs < a.rs
  let r := K.new ria
  if prod (as.map Ax.xs) = 0 then K.fill r 0 f ria
  else
    let s := setup take cs as.reverse ⟨1, 1, 0, 0, 0, 0, 0, 0, 0, []⟩
    (copyLoop K x anyFill f s.rSkip s.xSkip s.cellWrite ria (s.ctrs.drop (as.length - cs)) s.ri s.xi 0 r).bind fun (r, pri) =>
    if anyFill ∧ pri ≠ ria then K.fill r pri f (ria - pri) else some r

/-- `takedrop_highrank`, 523-690, for a list `𝕨` of integers. -/
def takedrop {M X α} (K : Kind M X α) (take : Bool) (ws : List Int) (f : α) (x : X) (sh : List Nat) : Option (Res M X) :=
  match ws with
  | [] => some (.same x sh)
  | [w] => if take then takeOne K w f x sh else dropOne K w x sh
  | w :: _ =>
    let xp := padShape ws.length sh
    let as := axes take (padAmounts take ws xp) xp
    match cellStart as with
    | none => some (.same x xp)
    | some 0 => if take then takeOne K w f x xp else dropOne K w x xp
    | some cs =>
      let rsh := as.map Ax.rs
      if prod rsh = 0 then some (.made (K.new 0) rsh)
      else (generic K take as cs f x).map (.made · rsh)

end Verif.Take
