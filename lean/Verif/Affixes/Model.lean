import Verif.Affixes.Spec
/-!
# Prefixes and suffixes: model

`↑𝕩` and `↓𝕩`, `affixes`, `src/builtins/sfns.c` 488-515. The elements are of any type; slices give their elements. An atom is an array of rank 0.
-/
namespace Verif.Affixes
open Verif.Rotate

/-- An error, reading or writing where there is nothing, or a value. -/
inductive Res (β : Type)
  | ok (r : β)
  | err
  | ub
  deriving DecidableEq

/-- `arr_csz`, `src/core/stuff.h` 180-184: the product of the lengths after the first in 32 bits. -/
def cellSize (csh : List Nat) : Nat := if csh = [] then 1 else csh.foldl (fun r l => r * l % 2^32) 1

/-- `slice`: `n` elements from `i`. -/
def slice {α} (x : List α) (i n : Nat) : Option (List α) := if i + n ≤ x.length then some ((x.drop i).take n) else none

/-- The loops 498 and 504-511, with `n` steps left, and `cap` the number of elements that the result has room for. Were there `2⋆32` steps, the counter `i` would go back to zero and the loop wouldn't end; but the first one already writes where there is no room. -/
def loop {α} (post : Bool) (cam : Nat) (csh : List Nat) (x : List α) (cap : Nat) : Nat → Nat → Res (List (List Nat × List α))
  | 0, _ => .ok []
  | n + 1, i =>
    let len := if post then cam - i else i
    let part := if csh = [] then slice x (if post then i else 0) len
      else slice x (if post then i * cellSize csh % 2^32 else 0) (len * cellSize csh % 2^32)
    match part with
    | none => .ub
    | some p =>
      if i < cap then match loop post cam csh x cap n (i + 1) with
        | .ok r => .ok ((len :: csh, p) :: r)
        | o => o
      else .ub

/-- `affixes`: the elements of the result and its fill. `M_HARR`, `src/core/harr.h` 26-39, takes the length in 32 bits; `CHECK_IA`, `src/h.h` 172. -/
def affixes {α} (post : Bool) (sh : List Nat) (x : List α) : Res (List (List Nat × List α) × (List Nat × List α)) :=
  match sh with
  | [] => .err
  | cam :: csh =>
    let ria := cam + 1
    let cap := ria % 2^32
    if cap > 2^31 / 8 - 1000 then .err
    else match loop post cam csh x cap ria 0 with
      | .err => .err
      | .ub => .ub
      | .ok r => match r[if post then cam else 0]? with
        | none => .ub
        | some f => .ok (r, f)

end Verif.Affixes
