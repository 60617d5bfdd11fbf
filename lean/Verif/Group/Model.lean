import Verif.Rotate.Model
import Verif.Group.Spec
/-!
# Group: `src/builtins/group.c`

`group_simple` for integer indices. `𝕩` has `xn` cells of `csz` elements. Positions are counted in elements; where the program counts bytes (or bits) in 32 bits and the number doesn't fit, the outcome is `none`, which stands for anything. Arrays of `usz` and of buckets are functions with checked indices. Reference counts and fills are left out. `w` is the squeezed `𝕨`; the statistics are computed by the generic loop (Singeli is disabled).
-/
namespace Verif.Group
open Verif.Bits Verif.Fold Verif.Slash Verif.Rep Verif.Select Verif.Under Verif.Rotate

/-- Arrays of one type, with the assignment of one element: `r[rs] = x[xs]`, for bits `bitp_set(r, rs, bitp_get(x, xs))`. -/
structure GKind (M α : Type) extends Kind M α where
  one : (r : M) → (rs : Nat) → (x : M) → (xs : Nat) → Option M
  /-- `arrTypeBitsLog`: elements have `2^log` bits. -/
  log : Nat
  /-- `elType != el_B` -/
  notB : Bool

/-- Numbers, characters or objects of `2^log` bits. -/
def elems {α} (log : Nat) (notB : Bool) (d : Nat → α) : GKind (List α) α := { elemKind d with one := fun r rs x xs => memCpy x r rs xs 1, log := log, notB := notB }

/-- Booleans. -/
def bools (junk : Nat → Word) : GKind (List Word) Bool := { bitKind junk with one := fun r rs x xs => bitSet (fun i => x.getD i 0#64) r rs xs, log := 0, notB := true }

/-- An array in the result, with its number of cells. -/
inductive Bucket (M α : Type) where
  /-- `z` -/
  | empty
  /-- `𝕩` itself -/
  | all
  /-- An array of the type of `𝕩`. -/
  | mem (m : M) (l : Nat)
  /-- An array of objects. -/
  | objs (m : List α) (l : Nat)

/-- The result. -/
inductive Res (M α : Type) where
  | err
  | ok (rs : List (Bucket M α))

/-- Statistics, 63-82. -/
structure Stats where
  max : Int := -1
  bad : Bool := false
  neg : Nat := 0
  sort : Bool := true
  change : Nat := 0
  prev : Int := -1

/-- `ACCUM`, 71-82. -/
def Stats.step (s : Stats) (n : Int) : Stats :=
  { max := if n > s.max then n else s.max
    bad := s.bad || decide (n < -1)
    neg := s.neg + if n = -1 then 1 else 0
    sort := s.sort && decide (s.prev ≤ n)
    change := s.change + if s.prev ≠ n then 1 else 0
    prev := n }

/-- `f[i] = v` -/
def upd {β} (f : Nat → β) (i : Nat) (v : β) : Nat → β := fun j => if j = i then v else f j

/-- `len[n] += l`: `len` begins one after the end of `pos`, so that `len[-1]` can be written. `len` here is moved by one. -/
def addLen (ria : Nat) (len : Nat → Nat) (n : Int) (l : Nat) : Option (Nat → Nat) := if 0 ≤ n + 1 ∧ n + 1 < ria + 1 then some (upd len (n + 1).toNat (len (n + 1).toNat + l)) else none

/-- How cells are copied. -/
structure Cells where
  rank1 : Bool
  /-- elements in a cell -/
  csz : Nat
  /-- 127-140: `xl`, `bits` and `width` -/
  xl : Nat
  bits : Bool
  width : Nat

/-- `CTZ`, for a number that isn't 0. -/
def ctz : Nat → Nat → Nat
  | 0, _ => 0
  | fuel + 1, n => if n % 2 = 1 then 0 else 1 + ctz fuel (n / 2)

/-- 127-140, for elements of `2^log` bits. `cell` is the shape of a cell. -/
def cellsOf (log : Nat) (cell : List Nat) : Cells :=
  let bits := log == 0
  let width := if bits then 1 else 2^(log - 3)
  match cell with
  | [] => { rank1 := true, csz := 1, xl := log, bits, width }
  | _ :: _ =>
    let csz := prod cell
    let width := width * csz
    let cs := csz ||| (if csz = 0 then 1 else 0)
    let xl := log + ctz 32 cs
    let (bits, width) := if bits && decide (3 ≤ xl) then (false, width / 8) else (bits, width)
    let xl := if (cs &&& (cs - 1)) ≠ 0 ∨ 7 < xl then 7 else xl
    { rank1 := false, csz, xl, bits, width }

/-- Elements in `width` bytes or bits. -/
def Cells.per (c : Cells) (log : Nat) : Nat := c.width * (if c.bits then 1 else 8) / 2^log

/-- `𝕨/𝕩` for booleans 𝕨, the subject of C23 and C24: the chosen cells in order. From cell `i` of `x` to cell `p` of `r`. -/
def slashLoop {M α} (K : Kind M α) (csz : Nat) (x : M) : List Bool → (i p : Nat) → M → Option M
  | [], _, _, r => some r
  | b :: bs, i, p, r => if b then (K.copy r (p * csz) x (i * csz) csz).bind fun r => slashLoop K csz x bs (i + 1) (p + 1) r else slashLoop K csz x bs (i + 1) p r

/-- The result, and its number of cells. -/
def slash {M α} (K : Kind M α) (csz : Nat) (m : List Bool) (x : M) : Option (M × Nat) :=
  let n := (m.filter id).length
  (slashLoop K csz x m 0 0 (K.new (n * csz))).map fun r => (r, n)

/-- `allocGroups` and `allocBitGroups`, 49-57, for one bucket. For higher ranks the size has 32 bits. -/
def alloc {M α} (K : Kind M α) (c : Cells) (l : Nat) : Option (Bucket M α) :=
  if l = 0 then some .empty
  else if c.rank1 = false ∧ 2^32 ≤ l * c.width then none
  else some (.mem (K.new (l * c.csz)) l)

/-- All of them. `len` is moved by one. -/
def allocAll {M α} (K : Kind M α) (c : Cells) (len : Nat → Nat) : Nat → Option (Nat → Bucket M α)
  | 0 => some fun _ => .empty
  | j + 1 => (allocAll K c len j).bind fun rp => (alloc K c (len (j + 1))).map fun b => upd rp j b

/-- The differences of the positions where runs start, 155-157; the length of each run is an `i32`. -/
def runs (xn : Nat) : List Nat → List (Nat × Nat)
  | [] => []
  | [s] => [(s, xn - s)]
  | s :: t :: ss => (s, t - s) :: runs xn (t :: ss)

/-- `for (usz i = 0; i < wia; i++) len[wp[i]]+=ip[i];`, 158 -/
def chunkLens (ria : Nat) (w : Nat → Int) : List (Nat × Nat) → (Nat → Nat) → Option (Nat → Nat)
  | [], len => some len
  | (s, l) :: ss, len => (addLen ria len (w s) l).bind fun len => chunkLens ria w ss len

/-- `GROUP_CHUNKED`, 162-169. `pos` counts cells; in the program it's 32 bits that count bytes or bits. -/
def chunks {M α} (K : Kind M α) (c : Cells) (per ria : Nat) (w : Nat → Int) (x : M) : List (Nat × Nat) → (pos : Nat → Nat) → (rp : Nat → Bucket M α) → Option (Nat → Bucket M α)
  | [], _, rp => some rp
  | (s, l) :: ss, pos, rp =>
    let n := w s
    if n < 0 then chunks K c per ria w x ss pos rp
    else
      let k := n.toNat
      if ria ≤ k ∨ 2^32 ≤ pos k * c.width then none
      else match rp k with
        | .mem m l1 => (K.copy m (pos k * per) x (s * per) (l * per)).bind fun m => chunks K c per ria w x ss (upd pos k (pos k + l)) (upd rp k (.mem m l1))
        | _ => none

/-- `for (usz i = 0; i < xn; i++) len[wp[i]]++;`, 196 -/
def lens (ria : Nat) (w : Nat → Int) : Nat → (i : Nat) → (Nat → Nat) → Option (Nat → Nat)
  | 0, _, len => some len
  | fuel + 1, i, len => (addLen ria len (w i) 1).bind fun len => lens ria w fuel (i + 1) len

/-- `GROUP_SORT`, 204-214: `i` counts cells. -/
def sorted {M α} (K : Kind M α) (c : Cells) (per : Nat) (x : M) (len : Nat → Nat) : Nat → (j i : Nat) → (Nat → Bucket M α) → Option (Nat → Bucket M α)
  | 0, _, _, rp => some rp
  | fuel + 1, j, i, rp =>
    let l := len (j + 1)
    (alloc K c l).bind fun b =>
    match b with
    | .mem m l => (K.copy m 0 x (i * per) (l * per)).bind fun m => sorted K c per x len fuel (j + 1) (i + l) (upd rp j (.mem m l))
    | b => sorted K c per x len fuel (j + 1) i (upd rp j b)

/-- The loops that move one cell at a time, 227-230 and 236-239: `put r p i` copies cell `i` of `𝕩` to cell `p`. -/
def byCell {M α} (put : M → Nat → Nat → Option M) (ria : Nat) (w : Nat → Int) : Nat → (i : Nat) → (pos : Nat → Nat) → (rp : Nat → Bucket M α) → Option (Nat → Bucket M α)
  | 0, _, _, rp => some rp
  | fuel + 1, i, pos, rp =>
    let n := w i
    if n < 0 then byCell put ria w fuel (i + 1) pos rp
    else
      let k := n.toNat
      if ria ≤ k then none
      else match rp k with
        | .mem m l => (put m (pos k) i).bind fun m => byCell put ria w fuel (i + 1) (upd pos k (pos k + 1)) (upd rp k (.mem m l))
        | _ => none

/-- `for (usz j = 0; j < csz; j++) rnp[j] = Get(x, i*csz + j);`, 265; from `j`. -/
def putObjs {M α} (K : Kind M α) (x : M) (p i : Nat) : Nat → (j : Nat) → List α → Option (List α)
  | 0, _, m => some m
  | fuel + 1, j, m => (K.get x (i + j)).bind fun v => if p + j < m.length then putObjs K x p i fuel (j + 1) (m.set (p + j) v) else none

/-- The generic case, 253-266. -/
def byObj {M α} (K : Kind M α) (csz ria : Nat) (w : Nat → Int) (x : M) : Nat → (i : Nat) → (pos : Nat → Nat) → (rp : Nat → Bucket M α) → Option (Nat → Bucket M α)
  | 0, _, _, rp => some rp
  | fuel + 1, i, pos, rp =>
    let n := w i
    if n < 0 then byObj K csz ria w x fuel (i + 1) pos rp
    else
      let k := n.toNat
      if ria ≤ k then none
      else match rp k with
        | .objs m l => (putObjs K x (pos k * csz) (i * csz) csz 0 m).bind fun m => byObj K csz ria w x fuel (i + 1) (upd pos k (pos k + 1)) (upd rp k (.objs m l))
        | _ => none

/-- 195-269, after the optional filter: `w` are the indices of `xn` cells. -/
def rest {M α} (K : GKind M α) (c : Cells) (d : Nat → α) (ria xn neg : Nat) (sort : Bool) (w : Nat → Int) (x : M) : Option (List (Bucket M α)) :=
  (lens ria w xn 0 fun _ => 0).bind fun len =>
  let done (rp : Nat → Bucket M α) := (List.range ria).map rp
  if K.notB = true ∧ c.csz = 0 then (allocAll K.toKind c len ria).map done
  else if K.notB = true ∧ sort = true then (sorted K.toKind c (c.per K.log) x len ria 0 neg fun _ => .empty).map done
  else if K.notB = true ∧ 3 ≤ c.xl ∧ c.xl - 3 ≤ 3 then
    let sz := 2^c.xl / 2^K.log
    (allocAll K.toKind c len ria).bind fun rp => (byCell (fun r p i => K.copy r (p * sz) x (i * sz) sz) ria w xn 0 (fun _ => 0) rp).map done
  else if c.xl = 0 then
    (allocAll K.toKind c len ria).bind fun rp => (byCell (fun r p i => K.one r p x i) ria w xn 0 (fun _ => 0) rp).map done
  else
    let rp (j : Nat) : Bucket M α := .objs (fresh d (len (j + 1) * c.csz)) (len (j + 1))
    if c.csz = 0 then some (done rp)
    else (byObj K.toKind c.csz ria w x xn 0 (fun _ => 0) rp).map done

/-- `group_simple`, 61-277, from 102 on, for indices that aren't booleans. -/
def groupInts {M α} (K : GKind M α) (c : Cells) (d : Nat → α) (ria xn : Nat) (s : Stats) (w : Nat → Int) (x : M) : Option (List (Bucket M α)) :=
  if ria = 0 then some []
  else if ria = 1 ∧ s.neg = 0 then some [.all]
  else if s.neg = xn then some (List.replicate ria .empty)
  else
    if 64 < xn ∧ K.notB = true ∧ s.change < xn * c.width / 32 then
      -- 142-177; positions are converted to `i32`
      let starts := (List.range xn).filter fun i => if i = 0 then decide (w 0 ≠ -1) else decide (w (i - 1) ≠ w i)
      let rl := runs xn starts
      if rl.any fun p => decide (2^31 ≤ p.1 ∨ 2^31 ≤ p.2) then none
      else
        (chunkLens ria w rl fun _ => 0).bind fun len =>
        (allocAll K.toKind c len ria).bind fun rp =>
        (chunks K.toKind c (c.per K.log) ria w x rl (fun _ => 0) rp).map fun rp => (List.range ria).map rp
    else if 32 < xn ∧ s.neg > (if c.bits then 0 else xn / 16) then
      -- 184-193
      let m := (List.range xn).map fun i => decide (w i ≠ -1)
      let w' := ((List.range xn).map w).filter fun n => decide (n ≠ -1)
      (slash K.toKind c.csz m x).bind fun (x', xn') => rest K c d ria xn' 0 s.sort (fun i => w'.getD i 0) x'
    else rest K c d ria xn s.neg s.sort w x

/-- `group_c2` and `group_simple`, 280-294 and 61-117. `wBit` if the type of `𝕨` is boolean; `w` is `𝕨`. -/
def group {M α} (K : GKind M α) (wBit : Bool) (w : List Int) (xn : Nat) (cell : List Nat) (x : M) (d : Nat → α) : Option (Res M α) :=
  let wia := w.length
  if wia < xn ∨ xn + 1 < wia then some .err
  else
    let c := cellsOf K.log cell
    let wf (i : Nat) : Int := w.getD i 0
    if wBit then
      let ria := if xn ≠ 0 then 1 + (if (w.take xn).any (· == 1) then 1 else 0) else if wia ≠ 0 then (wf 0).toNat else 0
      if ria = 0 then some (.ok [])
      else if ria = 1 then some (.ok [.all])
      else
        let w := w.take xn
        (slash K.toKind c.csz (w.map (· == 1)) x).bind fun (r1, l1) =>
        (slash K.toKind c.csz (w.map fun v => !(v == 1)) x).map fun (r0, l0) => .ok [.mem r0 l0, .mem r1 l1]
    else
      let s := (w.take xn).foldl Stats.step {}
      let r0 := if xn < wia then wf xn else 0
      let bad := s.bad || decide (r0 < -1)
      let ria := if s.max + 1 > r0 then s.max + 1 else r0
      if bad then some .err
      else (groupInts K c d ria.toNat xn s wf x).map .ok

/-! ## Reading the result, for the theorems -/

/-- Number of cells, `xn` being those of `𝕩`. -/
def Bucket.size {M α} (xn : Nat) : Bucket M α → Nat
  | .empty => 0
  | .all => xn
  | .mem _ l => l
  | .objs _ l => l

/-- The element at a position. -/
def Bucket.get {M α} (K : Kind M α) (x : M) : Bucket M α → Nat → Option α
  | .empty, _ => none
  | .all, k => K.get x k
  | .mem m _, k => K.get m k
  | .objs m _, k => m[k]?

end Verif.Group
