import Verif.JoinTo.Spec
/-!
# Join To: model

`𝕨∾𝕩`, `join_c2`, `src/builtins/sfns.c` 993-1055, with `arr_join_inline`, `src/utils/mut.h` 159-203. An atom is an array of rank 0 (`m_unit`). How elements of different types are stored together is in `Verif.Append`; fills, and that too large results are refused, aren't modelled. `inplace_add`, 1000, which adds an atom to a list as `arr_join_inline` does, isn't separate here.
-/
namespace Verif.JoinTo
open Verif.Rotate

/-- An error, reading or writing where there is nothing, or a shape and elements. -/
inductive Res (α : Type)
  | ok (sh : List Nat) (r : List α)
  | err
  | ub
  deriving DecidableEq

variable {α : Type}

/-- The elements that `arr_join_inline` gives; `used` is whether it adds to the storage of `𝕨`, which it does if that has room for all. The new length is kept in 32 bits; a new array has room for that many. -/
def joinEls (used : Bool) (w x : List α) : Option (List α) :=
  let ria := w.length + x.length
  if used then some ((w ++ x).take (ria % 2^32))
  else if w.length + x.length ≤ ria % 2^32 then some (w ++ x) else none

/-- What `SH` gives: the shape, and for lists the length, which changes with the array. -/
def shOf (sh : List Nat) (ia : Nat) : List Nat := if sh.length ≤ 1 then [ia] else sh

/-- The loop 1037-1047: the lengths after the first. `o` and `p` are where the lengths are read, and `n` is how many are left. -/
def lengths (wsh xsh : List Nat) : Nat → Nat → Nat → Res Nat
  | 0, _, _ => .ok [] []
  | n + 1, o, p => match wsh[o]?, xsh[p]? with
    | some l, some s =>
      if l ≠ s then .err
      else match lengths wsh xsh n (o + 1) (p + 1) with
        | .ok _ sh => .ok [] (s :: sh)
        | o => o
    | _, _ => .ub

/-- `join_c2`. Where the storage of `𝕨` is used, its length, and so the shape of a list, is that of the result by the time that shapes are compared, 1025-1030. -/
def joinTo (used : Bool) (wsh : List Nat) (w : List α) (xsh : List Nat) (x : List α) : Res α :=
  let wr := wsh.length
  let xr := xsh.length
  let c := max wr xr
  if c = 0 then match w, x with
    | a :: _, b :: _ => .ok [2] [a, b]
    | _, _ => .ub
  else if c - wr > 1 ∨ c - xr > 1 then .err
  else
    let wia0 := w.length
    match joinEls used w x with
    | none => .ub
    | some r =>
      if c = 1 then .ok [r.length] r
      else
        let wsh := if wr ≤ 1 then [wia0] else shOf wsh (if used then r.length else w.length)
        let xsh := shOf xsh x.length
        match lengths wsh xsh (c - 1) (1 + wr - c) (1 + xr - c) with
        | .err => .err
        | .ub => .ub
        | .ok _ sh => .ok (((if wr = c then wsh.getD 0 0 else 1) + (if xr = c then xsh.getD 0 0 else 1)) % 2^32 :: sh) r

end Verif.JoinTo
