import Verif.Find.Spec
/-!
# Find: model

`𝕨⍷𝕩`, `find_c2`, `src/builtins/fns.c` 283-378. Arrays are lists of elements with a shape; atoms have the shape of rank 0. `eq v u` is what the comparisons give for one element of `𝕩` and one of `𝕨`. Fills and flags aren't modelled; bits after the end of the result aren't either.
-/
namespace Verif.Find
open Verif.Rotate

/-- The result, an error, what the runtime written in BQN returns, or an access outside of an array. -/
inductive Res
  | ok (sh : List Nat) (r : List Bool)
  | err
  | rt
  | ub
  deriving DecidableEq

variable {α : Type} (eq : α → α → Bool)

/-- `CMP_AS_CALL(eq, …, xp + i*xw, v, rl)`, 310 and 315. -/
def cmpAS (x : List α) (i rl : Nat) (v : α) : Option (List Bool) :=
  if i + rl ≤ x.length then some (((x.drop i).take rl).map fun e => eq e v) else none

/-- `MATCH_CALL(match, wp, xp + p*xw, n)`, 328, for the `n` elements `ws`. -/
def matchAt (ws x : List α) (p : Nat) : Option Bool :=
  if p + ws.length ≤ x.length then some ((List.zipWith eq ((x.drop p).take ws.length) ws).all id) else none

/-- The loop 326-329 over the positions that are left. -/
def verify (ws x : List α) (i : Nat) : List Nat → List Bool → Option (List Bool)
  | [], r => some r
  | j :: js, r => match matchAt eq ws x (i + j) with
    | none => none
    | some b => verify ws x i js (if b then r else r.set j false)

/-- `bit_sum`, 317. -/
def bitSum (r : List Bool) : Nat := (r.filter id).length

/-- `/`, 321. -/
def indices (r : List Bool) : List Nat := (List.range r.length).filter fun j => r.getD j false

/-- The loop 314-333; the list is the elements of `𝕨` from `i` on. -/
def loop (bitW : Bool) (x : List α) (rl : Nat) : Nat → List α → List Bool → Option (List Bool)
  | _, [], r => some r
  | i, v :: ws, r => match cmpAS eq x i rl v with
    | none => none
    | some e =>
      let r := List.zipWith and r e
      let s := bitSum r
      if s = 0 then some r
      else if s < rl / 16 ∧ rl ≤ 2^31 - 1 ∧ bitW = false then verify eq (v :: ws) x i (indices r) r
      else loop bitW x rl (i + 1) ws r

/-- The path for lists, 299-336. -/
def findList (bitW : Bool) (w x : List α) : Res :=
  if w.length > x.length then .ok [0] []
  else match w with
    | [] => .ok [(x.length + 1) % 2^32] (List.replicate ((x.length + 1) % 2^32) true)
    | v :: ws =>
      let rl := x.length - (ws.length + 1) + 1
      match cmpAS eq x 0 rl v with
      | none => .ub
      | some r => match loop eq bitW x rl 1 ws r with
        | none => .ub
        | some r => .ok [rl] r

/-- `mulOn` over the leading axes, 350-359. -/
def leads : List Nat → Nat → Option Nat
  | [], ia => some ia
  | c :: sh, ia => if ia * c ≥ 2^32 then none else leads sh (ia * c)

/-- The other axes, 363-373. -/
def trails : List Nat → List Nat → Nat → Option (List Nat × Nat)
  | m :: wsh, l :: xsh, ia =>
    if m > l then match trails wsh xsh 0 with
      | none => none
      | some (sh, ia) => some (0 :: sh, ia)
    else
      let c := (l + 1 + (2^32 - m)) % 2^32
      if c = 0 ∨ ia * c ≥ 2^32 then none
      else match trails wsh xsh (ia * c) with
        | none => none
        | some (sh, ia) => some (c :: sh, ia)
  | _, _, ia => some ([], ia)

/-- `emptyres`, 343-377 -/
def emptyRes (wia : Nat) (wsh xsh : List Nat) : Res :=
  if xsh.length > 1 then match leads (xsh.take (xsh.length - wsh.length)) 1 with
    | none => .err
    | some ia => match trails wsh (xsh.drop (xsh.length - wsh.length)) ia with
      | none => .err
      | some (sh, ia) => .ok (xsh.take (xsh.length - wsh.length) ++ sh) (List.replicate ia true)
  else
    let ia := if wia = 0 then 1 else 0
    .ok [ia] (List.replicate ia true)

/-- `for_cells_SA` with `⍷` on each row (C51); the rows have the same type as `𝕩`. -/
def rows (f : List α → Res) (m : Nat) (x : List α) : Nat → Nat → List Bool → Res
  | 0, c, r => .ok [c] r
  | n + 1, c, r => match f (x.take m) with
    | .ok [l] p => rows f m (x.drop m) n l (r ++ p)
    | .ok _ _ => .ub
    | o => o

/-- `find_c2`, 283-385. `typedW` and `typedX`: whether the array isn't of objects; an atom `𝕨` counts as typed. -/
def find (typedW typedX bitW : Bool) (wsh : List Nat) (w : List α) (xsh : List Nat) (x : List α) : Res :=
  if wsh.length > xsh.length then .err
  else if xsh.length = 1 ∧ typedX = true ∧ typedW = true then
    if wsh.length = 0 then match w with
      | [v] => .ok xsh (x.map fun e => eq e v)
      | _ => .ub
    else findList eq bitW w x
  else if wsh.length = 0 then match w with
    | [v] => .ok xsh (x.map fun e => eq e v)
    | _ => .ub
  else if x.length = 0 then emptyRes w.length wsh xsh
  else if wsh.length = 1 ∧ xsh.length = 2 then
    if w.length > xsh.getD 1 0 then emptyRes w.length wsh xsh
    else if typedX = true ∧ typedW = true then
      match rows (findList eq bitW w) (xsh.getD 1 0) x (xsh.getD 0 0) 0 [] with
      | .ok [c] r => .ok [xsh.getD 0 0, c] r
      | .ok _ _ => .ub
      | o => o
    else .rt
  else .rt

end Verif.Find
