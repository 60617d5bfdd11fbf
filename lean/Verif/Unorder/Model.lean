import Verif.Reorder.Model
/-!
# Model of the inverse of Reorder Axes, and of Under with it

`/repo/src/builtins/transpose.c` 482-525 `invert_transp_w`, `transp_ix` and `transp_ucw`. An item of `p` has 8 bits, as has the rank, so nothing is cut off. `none` is a read or write outside of memory.
Reference counts are left out; numbers in `𝕨` that are no integers from 0 on and a `𝕨` with more than one axis are errors that aren't modelled.
-/
namespace Verif.Unorder
open Verif.Rep Verif.Reorder
open Verif.Group (GKind)

/-- `𝕨`: a number, or a list of numbers. -/
inductive Axes where
  | atom (a : Nat)
  | list (ws : List Nat)

/-- What `invert_transp_w` gives: an error, `bi_N`, or a list. -/
inductive Inv (β : Type) where
  | err
  | dup
  | ok (r : β)
deriving DecidableEq

/-- 496-502, from `i` on with the rest of `𝕨`: `p` and `max`. -/
def place (xr : Nat) : Nat → List Nat → List Nat → Nat → Option (Inv (List Nat × Nat))
  | _, [], p, max => some (.ok (p, max))
  | i, a :: ws, p, max =>
    if xr ≤ a then some .err
    else (p[a]?).bind fun v =>
      if v ≠ xr then some .dup
      else place xr (i + 1) ws (p.set a i) (if a > max then a else max)

/-- `for (usz i=0, j=wia; i<n; i++) wp[i] = p[i]<xr? p[i] : j++;`, 506, from `i` on with `k` steps to go. -/
def number (xr : Nat) (p : List Nat) : Nat → Nat → Nat → Option (List Nat)
  | 0, _, _ => some []
  | k + 1, i, j => (p[i]?).bind fun v =>
    if v < xr then (number xr p k (i + 1) j).map (v :: ·) else (number xr p k (i + 1) (j + 1)).map (j :: ·)

/-- `invert_transp_w`, 482-511. -/
def invertW (w : Axes) (xr : Nat) : Option (Inv (List Nat)) :=
  match w with
  | .atom a => if xr < 1 then some .err else if xr ≤ a then some .err else some (.ok ((List.range a).map (· + 1)))
  | .list ws =>
    let wia := ws.length
    if wia = 0 then some (.ok ws)
    else if xr < wia then some .err
    else
      (place xr 0 ws (List.replicate xr xr) 0).bind fun
      | .err => some .err
      | .dup => some .dup
      | .ok (p, max) => (number xr p (max + 1) 0 wia).map .ok

/-- `𝕨⍉𝕩`, 257-449. A number for the last axis is `⍉𝕩`, 273, which `tr` stands for (C28); any other number is like a list of it. -/
def reorderW {M α} (K : GKind M α) (tr : M → List Nat → Option (M × List Nat)) (w : Axes) (x : M) (xsh : List Nat) : Option (Out (M × List Nat)) :=
  match w with
  | .atom a =>
    if xsh.length < 1 then some .err
    else if xsh.length ≤ a then some .err
    else if a = xsh.length - 1 then (tr x xsh).map .ok
    else reorder K [a] x xsh
  | .list ws => reorder K ws x xsh

/-- `transp_ix`, 513-518: `𝕨⍉⁼𝕩`. -/
def unorder {M α} (K : GKind M α) (w : Axes) (x : M) (xsh : List Nat) : Option (Out (M × List Nat)) :=
  (invertW w xsh.length).bind fun
  | .err => some .err
  | .dup => some .err
  | .ok wi => reorder K wi x xsh

/-- `transp_ucw`, 520-524: `𝔽⌾(𝕨⊸⍉)𝕩`. `o` is `𝔽`, for arrays; `other` is what `def_fn_ucw` gives. -/
def underReorder {M α} (K : GKind M α) (tr : M → List Nat → Option (M × List Nat)) (o : M → List Nat → Option (Out (M × List Nat))) (other : Option (Out (M × List Nat)))
    (w : Axes) (x : M) (xsh : List Nat) : Option (Out (M × List Nat)) :=
  (invertW w xsh.length).bind fun
  | .err => some .err
  | .dup => other
  | .ok wi => (reorderW K tr w x xsh).bind fun
    | .err => some .err
    | .ok (y, ysh) => (o y ysh).bind fun
      | .err => some .err
      | .ok (y, ysh) => reorder K wi y ysh

end Verif.Unorder
