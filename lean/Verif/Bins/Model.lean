import Verif.Bins.Spec
import Verif.Fold.Model
/-!
# Model of bins (`/repo/src/builtins/grade.h` 363-580, `/repo/src/builtins/sort.c` 6-19)

`up` is true for `⍋` (`GRADE_UD(a,b)` is `a`) and false for `⍒`. Without Singeli. `𝕨` is a list; if it has a higher rank, or if `𝕩`
has a rank and `𝕨` a rank over 1, the arguments first become arrays of cells (grade.h 433-439, not modelled). `𝕩` is given by its
elements in index order; results have the shape of `𝕩`. Reading outside of an array is `none`. Reference counting is not modelled.
-/
namespace Verif.Bins
open Verif.Bits Verif.Sort Verif.Fold

/-- The element types: booleans (words and length), integers (i8, i16 or i32), doubles, characters, any values. -/
inductive BArr
  | bit (x : Nat → Word) (n : Nat)
  | int (xs : List Int)
  | flt (xs : List (BitVec 64))
  | chr (xs : List Nat)
  | any (xs : List Value)

/-- `IA` -/
def BArr.len : BArr → Nat
  | .bit _ n => n
  | .int xs => xs.length
  | .flt xs => xs.length
  | .chr xs => xs.length
  | .any xs => xs.length

/-- The elements as values (`GetU`; `m_i32` makes the double with that value). -/
def BArr.elems : BArr → List Value
  | .bit x n => (listF x n).map fun b => numV (ofInt b.toNat)
  | .int xs => xs.map fun i => numV (ofInt i)
  | .flt xs => xs.map numV
  | .chr xs => xs.map chrV
  | .any xs => xs

/-- 367-369 `CMP` -/
def cmpLoop (bad : α → α → Bool) : List α → Bool
  | a :: b :: l => if bad a b then false else cmpLoop bad (b :: l)
  | _ => true

/-- sort.c 6-19; `n` is `xia`. The word `xp[iw]` may be one past the last, its value does not matter then. -/
def bitIsSorted (x : Nat → Word) (down : Bool) (n : Nat) : Option Bool :=
  (bit_find x n (!down)).bind fun i =>
    let iw := i/64
    let m := ~~~0#64
    let mid := x iw
    let d := (if down then ~~~mid else mid) ^^^ (m <<< (i%64))
    if iw = n/64 then some (decide (d &&& ~~~(m <<< (n%64)) = 0#64))
    else if d ≠ 0#64 then some false
    else
      let o := iw + 1
      let l := n - 64*o
      (bit_find (fun j => x (o+j)) l down).map fun f => decide (f = l)

/-- 363-400: `isSortedUp`, `isSortedDown`; `GRADE_UD(>,<)` is "after" -/
def isSorted (up : Bool) (w : BArr) : Option Bool :=
  if w.len ≤ 1 then some true else
  match w with
  | .bit x n => bitIsSorted x (!up) n
  | .int xs => some (cmpLoop (fun a b => lt up b a) xs)
  | .flt xs => some (cmpLoop (fun a b => lt (!up) (Compare.floatCompare a b) 0) xs)
  | .chr xs => some (cmpLoop (fun a b => lt up (b : Nat) (a : Nat)) xs)
  | .any xs => some (cmpLoop (fun a b => lt (!up) (cmpValue a b) 0) xs)

/-- 406-408 and 546-547: `s` is the distance from the (virtual) element before the first; `after i` is `c LT w[i]`. -/
def narrow (after : Nat → Option Bool) : Nat → Nat → Nat → Option Nat
  | 0, _, _ => none
  | f+1, s, l =>
    let h := l/2
    if h = 0 then some s
    else (after (s + h - 1)).bind fun b => narrow after f (if b then s else s + h) (l - h)

/-- 403-416: `bit_boundaryup`, `bit_boundarydn`. `BIT_N(n)` words. -/
def bitBoundary (up : Bool) (x : Nat → Word) (n : Nat) : Option Nat :=
  let c : Word := if up then 0#64 else ~~~0#64
  let k := (n + 63)/64
  (narrow (fun i => if i < k then some (lt up c.toNat (x i).toNat) else none) (k + 2) 0 (k + 1)).map fun s =>
    let b := 64*s
    if n ≤ b then n
    else
      let v := if up then ~~~ x s else x s
      let v := if n ≤ b + 63 then v &&& (~~~0#64 >>> ((64 - n%64) % 64)) else v
      b + POPC v

/-- 555-565: `compare` with the elements of `w`, `s+e` in 32 bits -/
def halve (up : Bool) (w : List Value) (c : Value) : Nat → Nat → Nat → Option Nat
  | 0, _, _ => none
  | f+1, s, e =>
    if 1 < e - s then
      let m := (s + e) % 2^32 / 2
      if m = 0 then none
      else w[m-1]?.bind fun a => if lt up (cmpValue c a) 0 then halve up w c f s m else halve up w c f m e
    else some s

/-- 551-566 at `gen` -/
def general (up : Bool) (w x : List Value) : Option (List Nat) :=
  x.mapM fun c => halve up w c (w.length + 2) 0 (w.length + 1)

/-- 538-549 -/
def search32 (up : Bool) (w x : List Int) : Option (List Nat) :=
  x.mapM fun c => narrow (fun i => w[i]?.map fun m => lt up c m) (w.length + 2) 0 (w.length + 1)

/-- The functions `≤ ≥ < ≠` on atoms (IEEE comparisons for doubles; numbers before characters), applied to each element. -/
def leA : Compare.Val → Compare.Val → Bool
  | .num f, .num g => !Compare.nan f && !Compare.nan g && decide (Compare.key f ≤ Compare.key g)
  | .chr c, .chr d => decide (c ≤ d)
  | .num _, .chr _ => true
  | _, _ => false
def ltA : Compare.Val → Compare.Val → Bool
  | .num f, .num g => !Compare.nan f && !Compare.nan g && decide (Compare.key f < Compare.key g)
  | .chr c, .chr d => decide (c < d)
  | .num _, .chr _ => true
  | _, _ => false
def neA : Compare.Val → Compare.Val → Bool
  | .num f, .num g => Compare.nan f || Compare.nan g || decide (Compare.key f ≠ Compare.key g)
  | .chr c, .chr d => decide (c ≠ d)
  | _, _ => true

/-- 463-472: the bits of the result from the last to the first, `b = 2*b + !(compare(xp[i], c) LT 0)` -/
def packLoop (t : Nat → Bool) : Nat → Word → (Nat → Word) → (Nat → Word)
  | 0, _, r => r
  | i+1, b, r =>
    let b := 2#64 * b + (if t i then 1#64 else 0#64)
    packLoop t i b (if i % 64 = 0 then Radix.upd r (i/64) b else r)

/-- Both arguments have a type below `el_B`. -/
def BArr.simple : BArr → Bool
  | .any _ => false
  | _ => true
/-- `elNum` -/
def BArr.isNum : BArr → Bool
  | .bit _ _ | .int _ | .flt _ => true
  | _ => false
/-- element type `el_f64` -/
def BArr.isF64 : BArr → Bool
  | .flt _ => true
  | _ => false
/-- `q_nan` -/
def isNaN : Compare.Val → Bool
  | .num f => Compare.nan f
  | _ => false

/-- 451-476: `𝕨` of one element `c`; `junk` is what the result's memory held before. -/
def single (up : Bool) (junk : Nat → Word) (c : Value) (w x : BArr) : List Nat :=
  let xs := x.elems
  if w.simple && x.simple then
    if w.isF64 && x.isNum && isNaN c.1 then
      if up then xs.map fun v => (neA v.1 v.1).toNat else xs.map fun _ => 1
    else if up && x.isF64 then xs.map fun v => (!ltA v.1 c.1).toNat
    else xs.map fun v => (if up then leA c.1 v.1 else leA v.1 c.1).toNat
  else
    let t := fun i => match xs[i]? with | some v => !lt up (cmpValue v c) 0 | none => false
    (listF (packLoop t xs.length 0#64 junk) xs.length).map Bool.toNat

/-- A result or one of the two errors. -/
inductive Out | ok (r : List Nat) | tooBig | notSorted
deriving DecidableEq

/-- `bit_sel(x, a, b)` (slash.c / arithm): `a` where `x` is 0 and `b` where it is 1 -/
def bitSel (x : Nat → Word) (n a b : Nat) : List Nat := (listF x n).map fun v => if v then b else a

/-- 484-566: by element types; `rec flag w x` is the recursive call of `𝕨⍋𝕩` (489-504). -/
def typed (up : Bool) (rec : Bool → BArr → BArr → Option Out) : BArr → BArr → Option Out
  | .any ws, x => (general up ws x.elems).map .ok
  | w, .any xs => (general up w.elems xs).map .ok
  | .bit b n, .bit x m =>
    (bitBoundary up b n).map fun c1 => .ok (bitSel x m (if up then c1 else n) (if up then n else c1))
  | .bit _ n, .chr xs => some (.ok (List.replicate xs.length (if up then n else 0)))
  | .bit b n, x =>
    (bitBoundary up b n).bind fun c1 => (rec false (.int (if up then [0, 1] else [1, 0])) x).bind fun
      | .ok i => (i.mapM fun j => [0, c1, n][j]?).map .ok
      | e => some e
  | .chr ws, .chr xs => (search32 up (ws.map Int.ofNat) (xs.map Int.ofNat)).map .ok
  | .chr ws, x => some (.ok (List.replicate x.len (if up then 0 else ws.length)))
  | w, .chr xs => some (.ok (List.replicate xs.length (if up then w.len else 0)))
  | w, .bit x m =>
    (rec true w (.int [0, 1])).bind fun
      | .ok [i0, i1] => some (.ok (bitSel x m i0 i1))
      | .ok _ => none
      | e => some e
  | .int ws, .int xs => (search32 up ws xs).map .ok
  | w, x => (general up w.elems x.elems).map .ok

/-- 430-580. The first argument limits the recursion; `flag` is `FL_HAS(w,fl)`, it is set once checked. -/
def binsN (up : Bool) (junk : Nat → Word) : Nat → Bool → BArr → BArr → Option Out
  | 0, _, _, _ => none
  | k+1, flag, w, x =>
    if w.len = 0 ∨ x.len = 0 then some (.ok (List.replicate x.len 0))
    else if w.len = 1 then w.elems[0]?.map fun c => .ok (single up junk c w x)
    else if w.len > 2^31 - 1 - 10 then some .tooBig
    else (if flag then some true else isSorted up w).bind fun s =>
      if !s then some .notSorted else typed up (binsN up junk k) w x

/-- `𝕨⍋𝕩` and `𝕨⍒𝕩` -/
def binsC2 (up : Bool) (junk : Nat → Word) (flag : Bool) (w x : BArr) : Option Out := binsN up junk 2 flag w x

end Verif.Bins
