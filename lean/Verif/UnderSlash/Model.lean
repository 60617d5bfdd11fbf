import Verif.Group.Model
import Verif.UnderSlash.Spec
/-!
# Model of Under Replicate

`/repo/src/builtins/slash.c` 1034-1234 `slash_ucw`, with Singeli disabled, for lists `𝕨` and `𝕩` of the same length; other arguments go to the general case of Under. `none` is a read or write outside of
memory. The conversions to a common element type keep the elements and are left out.
-/
namespace Verif.UnderSlash
open Verif.Bits Verif.Fold Verif.Slash Verif.Rep Verif.Under Verif.Rotate
open Verif.Group (GKind)

/-- `bitp_set(r.rp, i, bitp_get(v? np : r.xp, v? ni : i))`, 1143-1147, and `((T*)r.rp)[i] = *(v? np+ni : ((T*)r.xp)+i)`, 1191-1196: from `i` on with `k` steps to go. `xp` is `none` if `r.xp` and `r.rp`
are the same memory. -/
def blend {M α} (K : GKind M α) (d : List Word) (rep : M) (xp : Option M) : Nat → Nat → Nat → M → Option M
  | 0, _, _, r => some r
  | k + 1, i, ni, r =>
    (getBit d i).bind fun v =>
    (if v then K.one r i rep ni else K.one r i (xp.getD r) i).bind fun r =>
    blend K d rep xp k (i + 1) (if v then ni + 1 else ni) r

/-- `for (ux j = 1; j < c; j++) if (!compatible(GetU(rep,ni+j), cr)) …`, 1217, from `p` on with `k` elements to go. -/
def sameRun {α} (compat : α → α → Bool) (get : Nat → Option α) (cr : α) : Nat → Nat → Option Bool
  | _, 0 => some true
  | p, k + 1 => (get p).bind fun e => if compat e cr then sameRun compat get cr (p + 1) k else some false

/-- 1213-1221, with the rest of `w`: the items added to `rp`. -/
def collapse {α} (compat : α → α → Bool) (get : Nat → Option α) : List Nat → Nat → Option (Out (List α))
  | [], _ => some (.ok [])
  | c :: ws, ni =>
    if c ≠ 0 then
      (get ni).bind fun cr =>
      (sameRun compat get cr (ni + 1) (c - 1)).bind fun b =>
        if b then (collapse compat get ws (ni + c)).map (Out.map (cr :: ·)) else some .err
    else collapse compat get ws (ni + c)

/-- `slash_ucw`, 1065-1074 and 1127-1233, for numbers, characters and booleans. `ws` are the numbers in `𝕨`, `none` for one that isn't an integer; `isBit` if they are stored as bits, and `d` are these bits or those of `𝕨≠0`.
`slash` is `𝕨/𝕩` with its length (C24), `o` is `𝔽`, which gives an array with its shape, and `toArr` is `toEltypeArr`. `reuse` if `canReuse(x)`. -/
def underSlash {M α} (K : GKind M α) (compat : α → α → Bool) (toArr : List α → M) (isBit : Bool) (ws : List (Option Int)) (d : List Word) (slash : Option (Out (M × Nat)))
    (o : M → Nat → Option (Out (M × List Nat))) (x : M) (reuse : Bool) : Option (Out M) :=
  match naturals ws with
  | none => some .err
  | some ns =>
    let ia := ws.length
    slash.bind fun
    | .err => some .err
    | .ok (arg, argIA) => (o arg argIA).bind fun
      | .err => some .err
      | .ok (rep, sh) =>
        if sh ≠ [argIA] then some .err
        else
          let bitW (rep : M) := (if reuse then blend K d rep none ia 0 0 x else blend K d rep (some x) ia 0 0 (K.new ia)).map .ok
          if isBit then bitW rep
          else (collapse compat (K.get rep) ns 0).bind fun
            | .err => some .err
            | .ok rp => bitW (toArr rp)

/-! ## Objects, with their reference counts

`(true, v)` is `inc(v)` and `(false, v)` is `dec(v)`. -/

/-- `BY_MASK`, 1034-1041, for the word `c` and `elts` from `p` on: the elements `F` is applied to. -/
def byMaskWord {α} (elts : List α) (p : Nat) : Nat → Word → Option (List α)
  | 0, _ => none
  | fuel + 1, c =>
    if c = 0#64 then some []
    else (CTZ c).bind fun k => (elts[p + k]?).bind fun v => (byMaskWord elts p fuel (c &&& (c - 1#64))).map (v :: ·)

/-- The loop of `decByMask` and `incByMask`, 1046 and 1052, from `i` on with `n` words to go. -/
def byMaskWords {α} (xor : Word) (mask : List Word) (elts : List α) : Nat → Nat → Option (List α)
  | 0, _ => some []
  | n + 1, i => (mask[i]?).bind fun m => (byMaskWord elts (i * 64) 65 (xor ^^^ m)).bind fun a => (byMaskWords xor mask elts n (i + 1)).map (a ++ ·)

/-- `decByMask` and `incByMask`, 1043-1054. -/
def byMask {α} (inv : Bool) (mask : List Word) (elts : List α) (ia : Nat) : Option (List α) :=
  let xor : Word := if inv then ~~~0#64 else 0#64
  let e := ia / 64
  (byMaskWords xor mask elts e 0).bind fun a =>
    if ia % 64 ≠ 0 then (mask[e]?).bind fun m => (byMaskWord elts (e * 64) 65 ((xor ^^^ m) &&& ((1#64 <<< (ia % 64)) - 1#64))).map (a ++ ·)
    else some a

/-- `r[i] = v`. -/
def store {α} (r : List α) (i : Nat) (v : α) : Option (List α) := if i < r.length then some (r.set i v) else none

/-- 1152-1164, from `i` on with `k` steps to go; `own` is `r.refState == 1`. -/
def blendPtr {α} (own : Bool) (d : List Word) (np : List α) (xp : Option (List α)) : Nat → Nat → Nat → List α → Option (List α × List (Bool × α))
  | 0, _, _, r => some (r, [])
  | k + 1, i, ni, r =>
    (getBit d i).bind fun v =>
    (if own then
      (((xp.getD r)[i]?).bind fun xv => (if v then (np[ni]?).map fun n => (n, [(false, xv), (true, n)]) else some (xv, [])))
    else if v then (np[ni]?).map fun n => (n, [(true, n)])
    else ((xp.getD r)[i]?).map fun n => (n, [(true, n)])).bind fun (e, es) =>
    (store r i e).bind fun r => (blendPtr own d np xp k (i + 1) (if v then ni + 1 else ni) r).map fun (r, fs) => (r, es ++ fs)

/-- 1169-1174: `Get(rep,ni)` takes a reference. -/
def blendGet {α} (d : List Word) (rep : List α) (xp : Option (List α)) : Nat → Nat → Nat → List α → Option (List α × List (Bool × α))
  | 0, _, _, r => some (r, [])
  | k + 1, i, ni, r =>
    (getBit d i).bind fun v =>
    (if v then (rep[ni]?).map fun n => (n, [(true, n)]) else ((xp.getD r)[i]?).map fun n => (n, [])).bind fun (e, es) =>
    (store r i e).bind fun r => (blendGet d rep xp k (i + 1) (if v then ni + 1 else ni) r).map fun (r, fs) => (r, es ++ fs)

/-- The case `el_B`, 1149-1178, on the result of `toEltypeArrX`, mut.c 872-903. `ptr` if `arr_bptr(rep)` isn't null. `reuse` if `r.xp` and `r.rp` are the same memory: `𝕩` is then used again, or was converted.
`own` is `r.refState == 1`: the elements at `r.xp` belong to the result. -/
def blendObj {α} (ptr own reuse : Bool) (d : List Word) (rep x : List α) (fresh : List α) : Option (List α × List (Bool × α)) :=
  let xp := if reuse then none else some x
  let r := if reuse then x else fresh
  let ia := x.length
  if ptr then blendPtr own d rep xp ia 0 0 r
  else
    (if own then (byMask false d x ia).map fun l => l.map fun v => (false, v) else (byMask true d x ia).map fun l => l.map fun v => (true, v)).bind fun es =>
    (blendGet d rep xp ia 0 0 r).map fun (r, fs) => (r, es ++ fs)

end Verif.UnderSlash
