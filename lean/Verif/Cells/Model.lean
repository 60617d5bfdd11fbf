import Verif.Cells.Spec
/-!
# Model of Cells and Rank

`/repo/src/builtins/cells.c`, without the functions that are recognised: `for_cells_c1` 433-625, `for_cells_AS`, `for_cells_SA` and `for_cells_AA` 683-883, and `˘` and `⎉`, 627-649 and 885-918.
The operand is a function with effects in any monad; its errors are effects. Sizes have 32 bits and wrap. Appending the results and its errors are C53 and taken from `merge`, when as many results are
appended as the shape says; otherwise memory and shape don't fit, which is `undef`. Running out of memory while appending isn't modelled. Reference counts aren't.
-/
namespace Verif.Cells
open Verif.Rotate (prod)
variable {E : Type} {m : Type → Type}

/-- `shProd`, `core/stuff.h` 175-179. -/
def shProd (sh : List Nat) : Nat := sh.foldl (fun r v => r * v % 2^32) 1

/-- `X##_slc(X, S, X##_csz)` in `SLICE`, 65; outside of the array there is nothing to take. -/
def slice (x : Arr E) (k csz p : Nat) : Option (Arr E) :=
  if p + csz ≤ x.els.length then some ⟨x.sh.drop k, (x.els.drop p).take csz⟩ else none

/-- `X##_csz`, 44-63. -/
def csz (x : Arr E) (k : Nat) : Nat := shProd (x.sh.drop k)

/-- The loops over the results: `next` takes what the operand is called on. `none` when there was nothing to take. -/
def loop [Monad m] {S A R : Type} (next : S → Option (A × S)) (f : A → m R) : Nat → S → m (Option (List R))
  | 0, _ => pure (some [])
  | n+1, s =>
    match next s with
    | none => pure none
    | some (a, s) => do
      let r ← f a
      let rs ← loop next f n s
      pure (rs.map (r :: ·))

/-- `APD_SH_GET` after `cam` appends to `M_APD_SH_N(r, k, xsh, cam)`. -/
def get (fr : List Nat) (cam : Nat) : Option (List (Val E)) → Out E
  | none => .undef
  | some rs => if prod fr = cam then merge fr rs else .undef

/-- `empty_frame`, 154-160. -/
def emptyFrame (fr : List Nat) : Out E := .ok ⟨fr, []⟩

/-- `mulOn(csz, sh[i])` for all axes, 364: `none` when it's too large. -/
def mulAll : List Nat → Nat → Option Nat
  | [], c => some c
  | v :: sh, c => if c * v ≥ 2^32 then none else mulAll sh (c * v)

/-- `to_fill_cell`, 358-370; `fill` is the fill of the array or 0. -/
def toFillCell (fill : Arr E → E) (x : Arr E) (k : Nat) : Option (Arr E) :=
  (mulAll (x.sh.drop k) 1).map fun c => ⟨x.sh.drop k, List.replicate c (fill x)⟩

/-- `merge_fill_result`, 372-384. -/
def mergeFill (rc : Val E) (fr : List Nat) : Out E :=
  if fr.length + rc.sh.length > 255 then .rank else .ok ⟨fr ++ rc.sh, []⟩

/-- `noCells` in `for_cells_c1`, 594-614; `f.safe` is there when `isPureFn(f)`, and `CATCH` gets its errors. -/
def empty1 [Monad m] (fill : Arr E → E) (f : Operand m (Val E) E) (x : Arr E) (k : Nat) : m (Out E) :=
  match f.safe with
  | none => pure (emptyFrame (x.sh.take k))
  | some p =>
    match toFillCell fill x k with
    | none => pure .large
    | some c =>
      match p (.arr c) with
      | none => pure (emptyFrame (x.sh.take k))
      | some rc => pure (mergeFill rc (x.sh.take k))

/-- `for_cells_c1`, 433-625, for functions that aren't recognised. -/
def forCells1 [Monad m] (fill : Arr E → E) (f : Operand m (Val E) E) (x : Arr E) (k : Nat) : m (Out E) :=
  let cam := shProd (x.sh.take k)
  if cam = 0 then empty1 fill f x k
  else do
    let cs := csz x k
    let rs ← loop (fun xp => (slice x k cs xp).map fun c => (Val.arr c, (xp + cs) % 2^32)) f.run cam 0
    pure (get (x.sh.take k) cam rs)

/-- `c1wrap` and `c2wrap`, 429-430. -/
def wrap : Val E → Out E
  | .atom e => .ok ⟨[], [e]⟩
  | .arr a => .ok a

/-- `req_whole` and `check_rank_vec`, 385-396, and the choice of an element in 636-642 and 889-898. -/
def pick (s : Side) : G → Option Num
  | .num .frac => none
  | .num n => some n
  | .other => none
  | .list ns =>
    let gia := ns.length
    if ¬ (gia ≥ 1 ∧ gia ≤ 3) then none
    else if ns.all (fun n => match n with | some n => n.whole | none => false) then
      (ns[match s with | .only => if gia = 2 then 1 else 0 | .left => if gia < 2 then 0 else gia - 2 | .right => gia - 1]?).join
    else none

/-- `cell_rank`, 397-399. Whole doubles are integers; sums with a rank are exact or have the same sign. -/
def cellRankC (r : Nat) : Num → Nat
  | .int k => if k < 0 then (if k + r < 0 then 0 else (k + r).toNat) else if k > r then r else k.toNat
  | .inf pos => if pos then r else 0
  | .frac => 0

/-- `if (RARE(isFun(g))) gi = g = c1iX(g, x)`, 635 and 888. -/
def GArg.call [Monad m] {A : Type} (a : A) : GArg m A → m G
  | .val g => pure g
  | .fn h => h a

/-- `rank_c1`, 632-649. -/
def rank1 [Monad m] (fill : Arr E → E) (f : Operand m (Val E) E) (g : GArg m (Val E)) (x : Val E) : m (Out E) := do
  match pick .only (← g.call x) with
  | none => pure .badRank
  | some kf =>
    match x with
    | .atom e => do pure (wrap (← f.run (.atom e)))
    | .arr a =>
      let xr := a.sh.length
      let cr := cellRankC xr kf
      if cr = xr then do pure (wrap (← f.run (.arr a)))
      else forCells1 fill f a (xr - cr)

/-- `cell_c1`, 627-631. -/
def cell1 [Monad m] (fill : Arr E → E) (f : Operand m (Val E) E) (x : Val E) : m (Out E) :=
  match x with
  | .atom e => do pure (wrap (← f.run (.atom e)))
  | .arr a => if a.sh.length = 0 then do pure (wrap (← f.run (.arr a))) else forCells1 fill f a 1

/-- An argument in `rank2_empty`: `if (wk) w = to_fill_cell(w, wk, chr)`, 659-660. -/
def fillArg (fill : Arr E → E) (v : Val E) (k : Nat) : Option (Val E) :=
  match v with
  | .arr a => if k ≠ 0 then (toFillCell fill a k).map .arr else some v
  | .atom _ => some v

/-- `rank2_empty`, 651-673. -/
def empty2 [Monad m] (fill : Arr E → E) (f : Operand m (Val E × Val E) E) (w : Val E) (wk : Nat) (x : Val E) (xk : Nat) : m (Out E) :=
  let fr := if wk > xk then w.sh.take wk else x.sh.take xk
  match f.safe with
  | none => pure (emptyFrame fr)
  | some p =>
    match fillArg fill w wk, fillArg fill x xk with
    | some w', some x' =>
      match p (w', x') with
      | none => pure (emptyFrame fr)
      | some rc => pure (mergeFill rc fr)
    | _, _ => pure .large

/-- `for_cells_AS`, 683-714. -/
def forCellsAS [Monad m] (fill : Arr E → E) (f : Operand m (Val E × Val E) E) (w : Arr E) (wk : Nat) (x : Val E) : m (Out E) :=
  let cam := shProd (w.sh.take wk)
  if cam = 0 then empty2 fill f (.arr w) wk x 0
  else do
    let cs := csz w wk
    let rs ← loop (fun wp => (slice w wk cs wp).map fun c => ((Val.arr c, x), (wp + cs) % 2^32)) f.run cam 0
    pure (get (w.sh.take wk) cam rs)

/-- `for_cells_SA`, 715-823. -/
def forCellsSA [Monad m] (fill : Arr E → E) (f : Operand m (Val E × Val E) E) (w : Val E) (x : Arr E) (xk : Nat) : m (Out E) :=
  let cam := shProd (x.sh.take xk)
  if cam = 0 then empty2 fill f w 0 (.arr x) xk
  else do
    let cs := csz x xk
    let rs ← loop (fun xp => (slice x xk cs xp).map fun c => ((w, Val.arr c), (xp + cs) % 2^32)) f.run cam 0
    pure (get (x.sh.take xk) cam rs)

/-- The variables of the loops in 876-878: `i`, the end `e` of the inner loop, both positions, and the cell that is used again. -/
structure Pos (E : Type) where
  i : Nat
  e : Nat
  wp : Nat
  xp : Nat
  b : Option (Arr E)

/-- 876: cells side by side. -/
def nextBoth (w x : Arr E) (wk xk : Nat) (s : Nat × Nat) : Option ((Val E × Val E) × Nat × Nat) :=
  (slice w wk (csz w wk) s.1).bind fun a => (slice x xk (csz x xk) s.2).map fun b =>
    ((.arr a, .arr b), (s.1 + csz w wk) % 2^32, (s.2 + csz x xk) % 2^32)

/-- 877: `wb` is used for `ext` cells of `x`. -/
def nextX (w x : Arr E) (wk xk ext : Nat) (s : Pos E) : Option ((Val E × Val E) × Pos E) :=
  let s : Option (Pos E) := if s.i < s.e then some s
    else (slice w wk (csz w wk) s.wp).map fun a => { s with b := some a, e := (s.i + ext) % 2^32, wp := (s.wp + csz w wk) % 2^32 }
  s.bind fun s => s.b.bind fun wb => (slice x xk (csz x xk) s.xp).map fun c =>
    ((.arr wb, .arr c), { s with i := s.i + 1, xp := (s.xp + csz x xk) % 2^32 })

/-- 878: `xb` is used for `ext` cells of `w`. -/
def nextW (w x : Arr E) (wk xk ext : Nat) (s : Pos E) : Option ((Val E × Val E) × Pos E) :=
  let s : Option (Pos E) := if s.i < s.e then some s
    else (slice x xk (csz x xk) s.xp).map fun a => { s with b := some a, e := (s.i + ext) % 2^32, xp := (s.xp + csz x xk) % 2^32 }
  s.bind fun s => s.b.bind fun xb => (slice w wk (csz w wk) s.wp).map fun c =>
    ((.arr c, .arr xb), { s with i := s.i + 1, wp := (s.wp + csz w wk) % 2^32 })

/-- `for_cells_AA`, 824-883. -/
def forCellsAA [Monad m] (fill : Arr E → E) (f : Operand m (Val E × Val E) E) (w : Arr E) (wk : Nat) (x : Arr E) (xk : Nat) : m (Out E) :=
  let xkM : Bool := xk > wk
  let k := if xkM then wk else xk
  let zk := if xkM then xk else wk
  let zsh := if xkM then x.sh else w.sh
  if w.sh.take k ≠ x.sh.take k then pure .frames
  else
    let cam0 := shProd (w.sh.take k)
    let ext := shProd ((zsh.take zk).drop k)
    let cam := cam0 * ext % 2^32
    if cam = 0 then empty2 fill f (.arr w) wk (.arr x) xk
    else do
      let rs ←
        if ext = 1 then loop (nextBoth w x wk xk) f.run cam (0, 0)
        else if xkM then loop (nextX w x wk xk ext) f.run cam ⟨0, 0, 0, 0, none⟩
        else loop (nextW w x wk xk ext) f.run cam ⟨0, 0, 0, 0, none⟩
      pure (get (zsh.take zk) cam rs)

/-- `rank_c2` after the ranks of the cells are known, 902-912, with `wcr` as `none` for an atom or a whole array; and `cell_c2`, 913-918. -/
def dispatch [Monad m] (fill : Arr E → E) (f : Operand m (Val E × Val E) E) (w x : Val E) (wk xk : Nat) : m (Out E) :=
  match w, x with
  | .arr a, .arr b =>
    if wk = 0 then (if xk = 0 then do pure (wrap (← f.run (w, x))) else forCellsSA fill f w b xk)
    else if xk = 0 then forCellsAS fill f a wk x
    else forCellsAA fill f a wk b xk
  | .arr a, .atom _ => if wk = 0 then do pure (wrap (← f.run (w, x))) else forCellsAS fill f a wk x
  | .atom _, .arr b => if xk = 0 then do pure (wrap (← f.run (w, x))) else forCellsSA fill f w b xk
  | .atom _, .atom _ => do pure (wrap (← f.run (w, x)))

/-- `wr - wcr`. -/
def axes (n : Num) (v : Val E) : Nat := v.sh.length - cellRankC v.sh.length n

/-- `rank_c2`, 885-912. -/
def rank2 [Monad m] (fill : Arr E → E) (f : Operand m (Val E × Val E) E) (g : GArg m (Val E × Val E)) (w x : Val E) : m (Out E) := do
  let gv ← g.call (w, x)
  match pick .left gv, pick .right gv with
  | some wf, some xf => dispatch fill f w x (axes wf w) (axes xf x)
  | _, _ => pure .badRank

/-- `cell_c2`, 913-918. -/
def cell2 [Monad m] (fill : Arr E → E) (f : Operand m (Val E × Val E) E) (w x : Val E) : m (Out E) :=
  dispatch fill f w x (min 1 w.sh.length) (min 1 x.sh.length)

end Verif.Cells
