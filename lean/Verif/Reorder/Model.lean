import Verif.Group.Model
import Verif.Transpose.Model
import Verif.Reorder.Spec
/-!
# Model of Reorder Axes

`/repo/src/builtins/transpose.c` 252-449 `transp_c2`, with Singeli disabled. An atom `𝕨` for the last axis is `⍉𝕩` (C28). `none` is a read or write outside of memory or a loop that doesn't end.
Reference counts and fills are left out. Positions are counted in elements, also where the program counts bytes. Sizes are exact, as no product is more than `IA(x)`. Numbers in `𝕨` that are no
integers from 0 on are an error that isn't modelled.
-/
namespace Verif.Reorder
open Verif.Bits Verif.Slash Verif.Rep Verif.Select Verif.Under Verif.Rotate
open Verif.Group (GKind)
open Verif.Transpose (forLoop)

/-- `no_sh`, 289. -/
def noSh : Nat := 2^32 - 1

/-- The variables of the loop 291-298. -/
structure Perm where
  rsh : List Nat
  dup : Nat
  max : Nat
  id : Nat
deriving DecidableEq

/-- 291-298, from `i` on with the rest of `p` and of `xsh`. -/
def scan : Nat → List Nat → List Nat → Perm → Option Perm
  | _, [], _, s => some s
  | _, _ :: _, [], _ => none
  | i, j :: ps, xl :: xsh, s =>
    (s.rsh[j]?).bind fun l => scan (i + 1) ps xsh
      { rsh := if xl < l then s.rsh.set j xl else s.rsh
        dup := s.dup + if l ≠ noSh then 1 else 0
        max := if j > s.max then j else s.max
        id := s.id + if i = j then 1 else 0 }

/-- 304-308, with `k` axes to go and the rest of `xsh`: `rsh` and the rest of `p`. -/
def fillIn : Nat → Nat → List Nat → List Nat → Option (List Nat × List Nat)
  | _, 0, _, rsh => some (rsh, [])
  | j, k + 1, xsh, rsh =>
    (rsh[j]?).bind fun l =>
      if l = noSh then
        match xsh with
        | [] => none
        | xl :: xsh => (fillIn (j + 1) k xsh (rsh.set j xl)).map fun (r, p) => (r, j :: p)
      else fillIn (j + 1) k xsh rsh

/-- `for (usz i=na+dup, c=csz; i--; ) { st[p[i]]+=c; c*=xsh[i]; }`, 329; the items are `p[i]` and `xsh[i]` from the last one on. -/
def strides : List (Nat × Nat) → Nat → List Nat → Option (List Nat)
  | [], _, st => some st
  | (j, l) :: ps, c, st => (st[j]?).bind fun s => strides ps (c * l) (st.set j (s + c))

/-- The variables of the loop 333-339. `kept` are the items of `rsh` and `st`, the last one put there first. -/
structure Simp where
  kept : List (Nat × Nat)
  csz : Nat
  sz : Nat
deriving DecidableEq

/-- `*lp*=l`: `lp` is at the last length put there, or at `csz`. -/
def mulLast (l : Nat) (s : Simp) : Simp :=
  match s.kept with
  | [] => { s with csz := s.csz * l }
  | (l0, s0) :: k => { s with kept := (l0 * l, s0) :: k }

/-- 335-339, for one axis. -/
def simpStep (s : Simp) (ax : Nat × Nat) : Simp :=
  if ax.1 = 1 then s
  else if ax.2 = s.sz then { mulLast ax.1 s with sz := s.sz * ax.1 }
  else { s with kept := ax :: s.kept, sz := ax.1 * ax.2 }

/-- 333-339; the axes from the last one on. -/
def simplify (axes : List (Nat × Nat)) (csz : Nat) : Simp := axes.foldl simpStep ⟨[], csz, csz⟩

/-- An item of `ri`, `rsh` and `st`. -/
structure Ctr where
  ri : Nat
  len : Nat
  str : Nat

/-- The `while` loop 364-370, from the last axis but one on: the counters and `j0`. -/
def carry : List Ctr → Nat → Option (List Ctr × Nat)
  | [], _ => none
  | c :: cs, j =>
    let j := j + c.str
    if c.ri + 1 < c.len then some ({ c with ri := c.ri + 1 } :: cs, j)
    else (carry cs (j - c.len * c.str)).map fun (cs, j) => ({ c with ri := 0 } :: cs, j)

/-- `for (usz k=0; k<l; k++) …`, from `k` on with `n` steps to go. -/
def inner {M α} (K : GKind M α) (x : M) (csz str j0 : Nat) : Nat → Nat → Nat → M → Option (M × Nat)
  | 0, _, i, m => some (m, i)
  | n + 1, k, i, m => (K.copy m i x (j0 + k * str) csz).bind fun m => inner K x csz str j0 n (k + 1) (i + csz) m

/-- `AXIS_LOOP`, 350-371, with `mut_copyG`. -/
def axisLoop {M α} (K : GKind M α) (x : M) (csz l str ria : Nat) : Nat → List Ctr → Nat → Nat → M → Option M
  | 0, _, _, _, _ => none
  | fuel + 1, cs, j0, i, m =>
    (inner K x csz str j0 l 0 i m).bind fun (m, i) =>
      if i = ria then some m
      else (carry cs j0).bind fun (cs, j0) => axisLoop K x csz l str ria fuel cs j0 i m

/-- The counters of axes, all 0. -/
def zeros (axes : List (Nat × Nat)) : List Ctr := axes.map fun a => ⟨0, a.1, a.2⟩

/-- `tran(rp+i, xp+j, bw, bh, w, h)`, 57-62, for items of `csz` elements. -/
def tran {M α} (K : GKind M α) (x : M) (csz i j bw bh w h : Nat) (m : M) : Option M :=
  let move (a b : Nat) (m : M) := K.copy m (i + (a * h + b) * csz) x (j + (b * w + a) * csz) csz
  if bh < bw then forLoop (fun b m => forLoop (fun a m => move a b m) bw 0 m) bh 0 m
  else forLoop (fun a m => forLoop (fun b m => move a b m) bh 0 m) bw 0 m

/-- The loop 412-419 over the axes between `xai` and the last one, and then those before `xai`: the counters, `i` and `j`. -/
def carry2 (iSkip : Nat) (mid outer : List Ctr) (i j : Nat) : Option (List Ctr × List Ctr × Nat × Nat) :=
  match mid with
  | [] => (carry outer j).map fun (outer, j) => ([], outer, i + iSkip, j)
  | c :: cs =>
    let j := j + c.str
    if c.ri + 1 < c.len then some ({ c with ri := c.ri + 1 } :: cs, outer, i, j)
    else (carry2 iSkip cs outer i (j - c.len * c.str)).map fun (cs, outer, i, j) => ({ c with ri := 0 } :: cs, outer, i, j)

/-- 408-420. -/
def tranLoop {M α} (K : GKind M α) (x : M) (csz w h ws hs iSkip end' : Nat) : Nat → List Ctr → List Ctr → Nat → Nat → M → Option M
  | 0, _, _, _, _, _ => none
  | fuel + 1, mid, outer, i, j, m =>
    (tran K x csz i j w h ws hs m).bind fun m =>
      let i := i + h * csz
      if i = end' then some m
      else (carry2 iSkip mid outer i j).bind fun (mid, outer, i, j) => tranLoop K x csz w h ws hs iSkip end' fuel mid outer i j m

/-- 389: the axes between, the length of the axis with stride 1, and those before it; `none` for `goto skip_2d`. The axes are given from the last but one on. -/
def findOne : List (Nat × Nat) → Option (List (Nat × Nat) × Nat × List (Nat × Nat))
  | [] => none
  | (l, s) :: as => if s = 1 then some ([], l, as) else (findOne as).map fun (mid, w, outer) => ((l, s) :: mid, w, outer)

/-- `(+⌜´st×⟜↕¨rsh)`, 434-438, from the last axis on. -/
def indices (csz : Nat) : List (Nat × Nat) → List Nat → List Nat
  | [], ind => ind
  | (l, s) :: as, ind => indices csz as (((List.range l).map fun k => s / csz * k).flatMap fun v => ind.map (v + ·))

/-- `C2(select, ind, x)` for cells of `csz` elements, which is C25: one cell after the other. -/
def selectCells {M α} (K : GKind M α) (x : M) (csz : Nat) : List Nat → Nat → M → Option M
  | [], _, m => some m
  | v :: ind, i, m => (K.copy m (i * csz) x (v * csz) csz).bind (selectCells K x csz ind (i + 1))

/-- The lengths of axes multiplied, `shProd`. -/
def lens (axes : List (Nat × Nat)) : Nat := prod (axes.map Prod.fst)

/-- 381-386: `csz` has one of the sizes of numbers; `log` is `xlw`. -/
def cpuCell (csz log : Nat) (notB : Bool) : Bool := csz &&& (csz - 1) = 0 ∧ csz ≤ 64 >>> log ∧ 8 ≤ csz <<< log ∧ notB

/-- 341-440, with the axes from the last one on, for a result of `ria` elements. -/
def copyAxes {M α} (K : GKind M α) (x : M) (axes : List (Nat × Nat)) (csz : Nat) : Option M :=
  let ria := csz * lens axes
  match axes with
  | [] => K.copy (K.new csz) 0 x 0 csz
  | (l, str) :: rest =>
    let viaSelect := selectCells K x csz (indices csz rest ((List.range l).map fun k => str / csz * k)) 0 (K.new ria)
    if (32 * 8) >>> K.log ≤ csz then axisLoop K x csz l str ria (lens rest) (zeros rest) 0 0 (K.new ria)
    else if cpuCell csz K.log K.notB && !rest.isEmpty then
      match findOne rest with
      | none => viaSelect
      | some (mid, w, outer) =>
        if w * l < (256 * 8) >>> K.log then viaSelect
        else
          let hs := lens mid * l
          if mid.isEmpty && outer.isEmpty then tran K x csz 0 0 w l str hs (K.new ria)
          else
            let iSkip := (w - 1) * hs * csz
            tranLoop K x csz w l str hs iSkip (ria - iSkip) (lens mid * lens outer) (zeros mid) (zeros outer) 0 0 (K.new ria)
    else viaSelect

/-- `𝕨⍉𝕩`, 263-449: the array and its shape. -/
def reorder {M α} (K : GKind M α) (ws : List Nat) (x : M) (xsh : List Nat) : Option (Out (M × List Nat)) :=
  let wia := ws.length
  let xr := xsh.length
  if wia = 0 then some (.ok (x, xsh))
  else if xr < wia then some .err
  else if ws.any (xr ≤ ·) then some .err
  else
    (scan 0 ws xsh ⟨List.replicate xr noSh, 0, 0, 0⟩).bind fun s =>
    if s.id = wia then some (.ok (x, xsh))
    else
      let rr := xr - s.dup
      if rr ≤ s.max then some .err
      else
        (if wia < xr then fillIn 0 rr (xsh.drop wia) s.rsh else some (s.rsh, [])).bind fun (rsh, p) =>
        let sh := rsh.take rr
        if prod xsh = 0 then some (.ok (K.new 0, sh))
        else
          let na := s.max + 1
          let csz := prod (xsh.drop (na + s.dup))
          (strides (((ws ++ p).zip xsh).take (na + s.dup)).reverse csz (List.replicate na 0)).bind fun st =>
          let t := simplify ((rsh.take na).zip st).reverse csz
          (copyAxes K x t.kept.reverse t.csz).map fun r => .ok (r, sh)

end Verif.Reorder
