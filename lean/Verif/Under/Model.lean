import Verif.Select.Model
/-!
# Model of Under Select

`/repo/src/builtins/select.c` 664-814 `select_replace`, 1205-1248 `select_each_impl` and 1250-1327 `select_ucw`: `F⌾(w⊸⊏) x`, with `CHECK_VALID` (the default).
`none` is a read or write outside of memory, or the end of the program by `fatal`. Reference counts, shapes and fills are left out, and `x` and the
new cells are already of a common type (`toEltypeArr` and `to…Any`, which keep the elements).
-/
namespace Verif.Under
open Verif.Bits Verif.Fold Verif.Slash Verif.Rep Verif.Select

/-! ## `select_replace` -/

/-- `READ_W`, 685: sums of 64 bits can't overflow here. -/
def readW (v : Int) (cam : Nat) : Int := if v < 0 then v + cam else v

/-- 668-673 and `SPARSE_INIT`: the flags `set`, of which only those that are used are cleared when there are few. -/
def sparseInit (cam : Nat) : List Int → List Bool → Option (List Bool)
  | [], set => some set
  | v :: vs, set => if readW v cam < 0 then none else (wr set (readW v cam).toNat false).bind fun set => sparseInit cam vs set

def initSet (cam : Nat) (ws : List Int) (junk : Nat → Bool) : Option (List Bool) :=
  if ws.length < cam / 64 then sparseInit cam ws (fresh junk cam) else some (List.replicate cam false)

/-- The loops over the indices. `eq m c i` tells if the cell at `c` matches the `i`th new cell, which `put m c i` puts there. -/
def replLoop {M} (cam : Nat) (eq : M → Nat → Nat → Option Bool) (put : M → Nat → Nat → Option M) : List Int → Nat → List Bool → M → Option (Out M)
  | [], _, _, m => some (.ok m)
  | v :: vs, i, set, m =>
    if readW v cam < 0 then none
    else
      let c := (readW v cam).toNat
      (set[c]?).bind fun s =>
      (if s then eq m c i else some true).bind fun ok =>
      if !ok then some .err
      else (wr set c true).bind fun set => (put m c i).bind fun m => replLoop cam eq put vs (i + 1) set m

/-- `for (usz j = 0; j < csz; j++) if (!compatible(x[a+j], rep[b+j])) …`; `true` if there was no mismatch. -/
def eqRange {α} (compat : α → α → Bool) (get : Nat → Option α) (rep : Nat → Option α) (a b : Nat) : Nat → Nat → Option Bool
  | 0, _ => some true
  | l + 1, j => (get (a + j)).bind fun e => (rep (b + j)).bind fun f => if !compat e f then some false else eqRange compat get rep a b l (j + 1)

/-- The array that is changed, and the new cells. -/
inductive Tgt (α : Type)
  /-- One element per cell: integers, characters, doubles or objects. -/
  | elems (xs rep : List α)
  /-- One boolean per cell. -/
  | bits (x : List Word) (rep : Nat → Word)
  /-- Cells of `csz` booleans. -/
  | bitCells (csz : Nat) (x : List Word) (rep : Nat → Word)
  /-- Cells of `csz` objects. -/
  | objCells (csz : Nat) (xs rep : List α)
  /-- Cells of `csz` elements of `width` bytes. -/
  | cells (width csz : Nat) (xs rep : List α)

/-- A bit in memory. -/
def getBit (m : List Word) (k : Nat) : Option Bool := (m[k / 64]?).map fun w => w.getLsbD (k % 64)

/-- `select_replace`, 664-804. `fIdx` if the indices are doubles. `cwidth`, 793, has 8 bits. -/
def selectReplace {α} (compat : α → α → Bool) (fIdx : Bool) (ws : List Int) (cam : Nat) (t : Tgt α) (junk : Nat → Bool) : Option (Out (Res α)) :=
  (initSet cam ws junk).bind fun set =>
  let byElement (csz : Nat) (xs rep : List α) : Option (Out (Res α)) :=
    (replLoop cam (fun m c i => eqRange compat (m[·]?) (rep[·]?) (c * csz) (i * csz) csz 0) (fun m c i => memCpy rep m (c * csz) (i * csz) csz) ws 0 set xs).map (Out.map Res.elems)
  match t with
  | .elems xs rep =>
    (replLoop cam (fun m c i => (m[c]?).bind fun e => (rep[i]?).map fun f => compat e f) (fun m c i => (rep[i]?).bind fun e => wr m c e) ws 0 set xs).map (Out.map Res.elems)
  | .bits x rep =>
    (replLoop cam (fun m c i => (getBit m c).map fun b => b == bitF rep i) (fun m c i => bitSet rep m c i) ws 0 set x).map (Out.map Res.bits)
  | .bitCells csz x rep =>
    (replLoop cam (fun m c i => eqRange (· == ·) (getBit m) (fun k => some (bitF rep k)) (c * csz) (i * csz) csz 0) (fun m c i => bitCpy rep m (c * csz) (i * csz) csz) ws 0 set x).map
      (Out.map Res.bits)
  | .objCells csz xs rep => byElement csz xs rep
  | .cells width csz xs rep =>
    if fIdx then byElement csz xs rep
    else
      let cwidth := csz * width % 256
      (replLoop cam (fun m c i => eqRange compat (m[·]?) (rep[·]?) (c * cwidth / width) (i * cwidth / width) csz 0) (fun m c i => memCpy rep m (c * csz) (i * csz) csz) ws 0 set xs).map
        (Out.map Res.elems)

/-! ## `select_ucw` -/

/-- `getRange_fns`, `search.c` 53-62. -/
def getRange : List (Option Int) → Int → Int → Option (Int × Int)
  | [], lo, hi => some (lo, hi)
  | w :: ws, lo, hi => (o2i64 w).bind fun v => getRange ws (if v < lo then v else lo) (if v > hi then v else hi)

/-- 1271: `wia!=0 && (!getRange_fns[we](tyany_ptr(w), buf, wia) || buf[0]<-(i64)xn || buf[1]>=xn)`. -/
def rangeBad (xn : Nat) : List (Option Int) → Bool
  | [] => false
  | w :: ws =>
    match o2i64 w with
    | none => true
    | some v =>
      match getRange ws v v with
      | none => true
      | some (lo, hi) => decide (lo < -xn) || decide (hi ≥ xn)

/-- 1324-1326, after the indices were found to be good. -/
def replaceOr {α} (compat : α → α → Bool) (fIdx : Bool) (ws : List (Option Int)) (xn csz : Nat) (t : Tgt α) (junk : Nat → Bool) : Option (Out (Res α)) :=
  if csz = 0 then some (.ok .same) else selectReplace compat fIdx (ws.filterMap id) xn t junk

/-- `select_ucw`, with `w` squeezed and new cells of the right shape. `sel` is the result of `C2(select, w, x)`. For a constant array instead of a
function (1268-1276) the indices are tested first. -/
def ucw {α} (compat : α → α → Bool) (const fIdx : Bool) (ws : List (Option Int)) (xn csz : Nat) (sel : Option (Out (Res α))) (t : Tgt α) (junk : Nat → Bool) : Option (Out (Res α)) :=
  if const then
    if rangeBad xn ws then
      match sel with
      | some .err => some .err
      | _ => none
    else replaceOr compat fIdx ws xn csz t junk
  else
    match sel with
    | some .err => some .err
    | some (.ok _) => replaceOr compat fIdx ws xn csz t junk
    | none => none

/-- `select_each_impl`, 1277-1312: `c˙¨⌾(w⊸⊏) x` for a list `x`. -/
def ucwEach {α} (c : α) (ws : List (Option Int)) (xs : List α) (sel : Option (Out (Res α))) : Option (Out (Res α)) :=
  match cellLoop (fun m _ p => wr m p c) xs.length ws 0 xs with
  | none => none
  | some (.ok m) => some (.ok (.elems m))
  | some .err =>
    match sel with
    | some .err => some .err
    | _ => none

/-- The same for booleans. -/
def ucwEachBits {α} (c : Bool) (ws : List (Option Int)) (x : List Word) (xn : Nat) (sel : Option (Out (Res α))) : Option (Out (Res α)) :=
  match cellLoop (fun m _ p => bitSet (fun _ => if c then ~~~0#64 else 0#64) m p 0) xn ws 0 x with
  | none => none
  | some (.ok m) => some (.ok (.bits m))
  | some .err =>
    match sel with
    | some .err => some .err
    | _ => none

end Verif.Under
