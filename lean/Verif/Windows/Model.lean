import Verif.Windows.Spec
/-!
# Windows: model

`𝕨↕𝕩`, `ud_c2`, `src/builtins/fns.c` 150-226. Fills and element types aren't modelled. An atom `𝕨` is a list of rank 0 with one element; an atom `𝕩` is the same as an array of rank 0.
-/
namespace Verif.Windows
open Verif.Rotate

/-- An error, reading or writing where there is nothing, or a value. -/
inductive Res (β : Type)
  | ok (r : β)
  | err
  | ub
  deriving DecidableEq

/-- `o2s`, `src/h.h` 516: an integer from 0 to `2⋆32 - 1`. -/
def o2s (v : Int) : Option Nat := if 0 ≤ v ∧ v < 2^32 then some v.toNat else none

/-- Sums, differences and products of `usz`. -/
def addU (a b : Nat) : Nat := (a + b) % 2^32
def subU (a b : Nat) : Nat := (a + (2^32 - b % 2^32)) % 2^32
def mulU (a b : Nat) : Nat := a * b % 2^32

/-- `mulOn` for all lengths, 195 and 197; `none` is an error. -/
def mulAll : List Nat → Nat → Option Nat
  | [], r => some r
  | l :: sh, r => if r * l ≥ 2^32 then none else mulAll sh (r * l)

/-- The loop 174-181: the first lengths of the result and whether it's empty; `none` is an error. -/
def frame : List Nat → List Nat → Option (List Nat × Bool)
  | m :: ws, s :: xsh =>
    let l := addU s 1
    if l < m then none
    else match frame ws xsh with
      | none => none
      | some (f, e) => some (subU l m :: f, m == 0 || m == l || e)
  | _, _ => some ([], false)

/-- `mut_copyG` of `k` elements from `j`; the parts of the result are written one after the other. -/
def copy {α} (x : List α) (j k : Nat) : Option (List α) := if j + k ≤ x.length then some ((x.drop j).take k) else none

/-- The loop 203. The first number is a limit for the steps, which is at least the number of elements that are left. -/
def loop1 {α} (x : List α) (cia k ria : Nat) : Nat → Nat → Nat → Res (List α)
  | 0, _, _ => .ub
  | n + 1, i, j =>
    if i < ria then
      match copy x j k with
      | none => .ub
      | some p => match loop1 x cia k ria n (addU i k) (addU j cia) with
        | .ok r => .ok (p ++ r)
        | o => o
    else .ok []

/-- The loop 212-218. The counters and their lengths are given from the axis `a` to the first; after that there's no axis left to count. -/
def carry (xsh : List Nat) (wr cia : Nat) : List (Nat × Nat) → Nat → Nat → Nat → Option (List (Nat × Nat) × Nat)
  | [], _, _, _ => none
  | (c, l) :: cs, b, str, j =>
    if c + 1 = l then
      let j := subU j (mulU l str)
      match xsh[b]? with
      | none => none
      | some s =>
        let str' := if b = 0 then cia else mulU str s
        let b' := if b = 0 then wr - 1 else b - 1
        match carry xsh wr cia cs b' str' (addU j str') with
        | none => none
        | some (cs, j) => some ((0, l) :: cs, j)
    else some ((c + 1, l) :: cs, j)

/-- The loop 206-219. -/
def loopN {α} (x : List α) (xsh : List Nat) (wr cia k ria : Nat) : Nat → List (Nat × Nat) → Nat → Nat → Res (List α)
  | 0, _, _, _ => .ub
  | n + 1, cs, i, j =>
    match copy x j k with
    | none => .ub
    | some p =>
      if addU i k = ria then .ok p
      else match xsh[wr - 1]? with
        | none => .ub
        | some s =>
          let str := mulU cia s
          match carry xsh wr cia cs (wr - 2) str (addU j str) with
          | none => .ub
          | some (cs, j) => match loopN x xsh wr cia k ria n cs (addU i k) j with
            | .ok r => .ok (p ++ r)
            | o => o

/-- `2/𝕩`, whose length is checked, and its slice from 1, 188-191. -/
def pairs {α} (x : List α) : Res (List α) :=
  if 2 * x.length ≥ 2^32 then .err
  else
    let t := x.flatMap fun e => [e, e]
    match copy t 1 (t.length - 2) with
    | none => .ub
    | some r => .ok r

/-- `ud_c2`, 150-226 -/
def windows {α} (rank : Nat) (w : List Int) (xsh : List Nat) (x : List α) : Res (List Nat × List α) :=
  if rank > 1 then .err
  else if w.length = 0 then .ok (xsh, x)
  else if xsh.length < w.length then .err
  else if xsh.length + w.length > 255 then .err
  else match w.mapM o2s with
    | none => .err
    | some ws => match frame ws xsh with
      | none => .err
      | some (f, e) =>
        let wr := ws.length
        let rsh := f ++ (ws ++ xsh.drop wr)
        if x.length = 0 ∨ e = true then .ok (rsh, [])
        else if wr = 1 ∧ ws = [2] ∧ xsh.length = 1 then
          match pairs x with
          | .ok r => .ok (rsh, r)
          | .err => .err
          | .ub => .ub
        else match mulAll (rsh.drop (2 * wr)) 1 with
          | none => .err
          | some cia => match mulAll (rsh.take (2 * wr)) cia with
            | none => .err
            | some ria =>
              let k := mulU cia (rsh.getD (2 * wr - 1) 0)
              let r := if wr = 1 then loop1 x cia k ria (ria + 1) 0 0
                else loopN x xsh wr cia k ria (ria + 1) ((rsh.take (2 * wr - 1)).reverse.map fun l => (0, l)) 0 0
              match r with
              | .ok r => .ok (rsh, r)
              | .err => .err
              | .ub => .ub

end Verif.Windows
