import Verif.Insert.Spec
/-!
# Functions that Cells and Rank recognise: specification

What the functions do with one cell, apart from `˘` and `⎉`. `none` is an error. An operand of `˘` and `⎉` calls the function on each cell, `Verif.Cells.onCells` and `Verif.Cells.onPairs`.
-/
namespace Verif.Known
open Verif.Cells (Arr Val Operand Out)
open Verif.Rotate (prod)
variable {E : Type}

/-- A function of one argument, and one of two. -/
abbrev Fn1 (E : Type) := Val E → Option (Val E)
abbrev Fn2 (E : Type) := Val E × Val E → Option (Val E)

/-- Functions without effects. -/
def pureOp {A : Type} (f : A → Option (Val E)) : Operand Option A E := ⟨f, some f⟩

/-- `⊣𝕩` and `⊢𝕩`. -/
def same : Fn1 E := fun v => some v

/-- `<𝕩`: an array without axes, `box` being an array as an element. -/
def enclose (box : Arr E → E) : Fn1 E
  | .atom e => some (.arr ⟨[], [e]⟩)
  | .arr a => some (.arr ⟨[], [box a]⟩)

/-- Where an index is in a list of `n`: negative ones count from the end. -/
def place (i : Int) (n : Nat) : Option Nat :=
  if 0 ≤ i ∧ i < n then some i.toNat
  else if i < 0 ∧ 0 ≤ i + n then some (i + n).toNat
  else none

/-- `i⊏𝕩`: the major cell at an index. -/
def selectAt (i : Int) : Fn1 E := fun v =>
  match v.sh with
  | [] => none
  | n :: t => (place i n).map fun j => .arr ⟨t, (v.els.drop (j * prod t)).take (prod t)⟩

/-- `⊏𝕩`: the first major cell. -/
def firstCell : Fn1 E := selectAt 0

/-- `i⊑𝕩` for a list: the element at an index. `val` is what an element is: an array or not. -/
def pickAt (val : E → Val E) (i : Int) : Fn1 E := fun v =>
  match v.sh with
  | [n] => ((place i n).bind (v.els[·]?)).map val
  | _ => none

/-- `⊑𝕩`: the first element. -/
def pickFirst (val : E → Val E) : Fn1 E
  | .atom e => some (.atom e)
  | .arr a => a.els.head?.map val

/-- `≍𝕩`: one more axis in front. -/
def solo : Fn1 E := fun v => some (.arr ⟨1 :: v.sh, v.els⟩)

/-- `𝕨≍𝕩`: both in one array, if they have the same shape. -/
def couple : Fn2 E := fun p => if p.1.sh = p.2.sh then some (.arr ⟨2 :: p.1.sh, p.1.els ++ p.2.els⟩) else none

/-- `⥊𝕩`: a list. -/
def deshape : Fn1 E := fun v => some (.arr ⟨[v.els.length], v.els⟩)

/-- `»𝕩` and `«𝕩`: a cell of fills comes in and one goes out. -/
def nudge (after : Bool) (fill : Option E) : Fn1 E := fun v =>
  match v.sh with
  | [] => none
  | _ :: t =>
    if v.els = [] then some v
    else fill.map fun f => .arr ⟨v.sh, if after then v.els.drop (prod t) ++ List.replicate (prod t) f else List.replicate (prod t) f ++ v.els.take (v.els.length - prod t)⟩

/-- `w»𝕩` and `w«𝕩` for a list: one element comes in and one goes out. -/
def shiftIn (after : Bool) (w : E) : Fn1 E := fun v =>
  match v.sh with
  | [_] => if v.els = [] then some v else some (.arr ⟨v.sh, if after then v.els.drop 1 ++ [w] else w :: v.els.take (v.els.length - 1)⟩)
  | _ => none

/-- `⌽𝕩`: the major cells from the last to the first. -/
def reverseCells : Fn1 E := fun v =>
  match v.sh with
  | [] => none
  | n :: t => some (.arr ⟨v.sh, (List.range n).flatMap fun i => (v.els.drop ((n - 1 - i) * prod t)).take (prod t)⟩)

/-- Not more than one major cell. -/
def trivialCell (v : Val E) : Bool :=
  match v.sh with
  | [] => false
  | n :: _ => decide (n ≤ 1)

/-- `∧𝕩`, `∨𝕩` and `⍷𝕩`: one major cell or none is kept. `other` is what they do with more than one, or without axes. -/
def keepTrivial (other : Fn1 E) : Fn1 E := fun v => if trivialCell v then some v else other v

/-- `⍋𝕩`, `⍒𝕩`, `⊐𝕩`, `⊒𝕩` with `e` 0, and `∊𝕩` with `e` 1: a number for each major cell. `other` is what they do with more than one. -/
def numberTrivial (e : E) (other : Fn1 E) : Fn1 E := fun v =>
  if trivialCell v then some (.arr ⟨v.sh.take 1, List.replicate (prod (v.sh.take 1)) e⟩) else other v

/-- `≍⁼𝕩`: without the first axis if its length is 1. -/
def unsolo (other : Fn1 E) : Fn1 E := fun v =>
  match v.sh with
  | 1 :: t => some (.arr ⟨t, v.els⟩)
  | _ => other v

/-- `v˙`. -/
def always {A : Type} (v : Val E) : A → Option (Val E) := fun _ => some v

/-- Errors of `Verif.Insert` as errors here. -/
def ofRes {A : Type} : Verif.Insert.Res A → Option A
  | .ok a => some a
  | _ => none

/-- `𝔽˝𝕩`, `𝔽´𝕩` and `𝔽`𝕩` as in C55. -/
def insertFn (op : Verif.Insert.COp Option E) : Fn1 E := fun v => (Verif.Insert.insert1 op v).bind ofRes
def foldFn (val : E → Val E) (op : Verif.Insert.Op Option E) : Fn1 E := fun v => ((Verif.Insert.fold1 op v).bind ofRes).map val
def scanFn (op : Verif.Insert.Op Option E) : Fn1 E := fun v => ((Verif.Insert.scan1 op v).bind ofRes).map .arr

/-- `𝕨≡𝕩` or `𝕨≢𝕩` for arrays: the same shape and the same elements, as 1 or 0. -/
def matches_ [DecidableEq E] (bit : Bool → E) (ne : Bool) : Fn2 E := fun p => some (.atom (bit (ne != (p.1.sh == p.2.sh && p.1.els == p.2.els))))

/-- `w⊏𝕩` for a number `w`, the outer `none` being something else and the inner one a number that isn't an index; otherwise `other`. -/
def selectFn (num : E → Option (Option Int)) (other : Fn2 E) : Fn2 E := fun p =>
  match p.1 with
  | .atom e => match num e with
    | some i => i.bind fun i => selectAt i p.2
    | none => other p
  | _ => other p

/-- `w⊑𝕩` for a number `w` and a list `𝕩`; otherwise `other`. -/
def pickFn (num : E → Option (Option Int)) (val : E → Val E) (other : Fn2 E) : Fn2 E := fun p =>
  match p.1 with
  | .atom e => match num e with
    | some i => if p.2.sh.length = 1 then i.bind fun i => pickAt val i p.2 else other p
    | none => other p
  | _ => other p

/-- `w»𝕩` and `w«𝕩` for `w` without axes and a list `𝕩`; otherwise `other`. -/
def shiftFn (after : Bool) (other : Fn2 E) : Fn2 E := fun p =>
  match p.1.sh, p.1.els with
  | [], [e] => if p.2.sh.length = 1 then shiftIn after e p.2 else other p
  | _, _ => other p

example : selectAt (-1) (.arr ⟨[2, 2], [1, 2, 3, 4]⟩) = some (.arr ⟨[2], [3, 4]⟩ : Val Nat) := rfl
example : nudge false (some 0) (.arr ⟨[3], [1, 2, 3]⟩) = some (.arr ⟨[3], [0, 1, 2]⟩ : Val Nat) := rfl
example : reverseCells (.arr ⟨[3, 2], [1, 2, 3, 4, 5, 6]⟩) = some (.arr ⟨[3, 2], [5, 6, 3, 4, 1, 2]⟩ : Val Nat) := rfl

end Verif.Known
