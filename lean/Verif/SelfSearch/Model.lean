import Verif.HTab.Model
import Verif.Radix.Model
/-!
# Model of the self-searches `∊𝕩`, `⊒𝕩`, `⊐𝕩` and `⍷𝕩` (`/repo/src/builtins/selfsearch.c`, default build without Singeli)

A cell is a number that tells different cells apart; for cells of 1 to 32 bits it is the content of the cell in memory as an
unsigned integer. Cells of fewer than 64 bits that are not 1, 8, 16 or 32 bits wide are padded by the program and then searched
again (246-249, 378-381, 497-500); the model takes the padded array. Equality of cells is identity (no NaN). The arithmetic
primitives used for sorted arguments are exact here; `/` with a boolean list selects the marked cells. Uses of uninitialised
table entries, accesses outside a buffer and loops that do not end are `none`. The buffers of the radix method share memory
in the program; here they are separate (the sharing is the subject of `mark_layout` and `count_layout`), but a buffer that
does not fit in the memory requested is `none`.
-/
namespace Verif.SelfSearch
open Verif

structure Cells where
  lw : Nat       -- cellWidthLog (arrFns.h 85-95): log of the width in bits; 7 for any other width
  empty : Bool   -- cells without elements
  cmp64 : Bool   -- canCompare64_norm (81-91)
  f64 : Bool     -- element type is f64
  list : Bool    -- rank 1
  asc : Bool     -- flags
  dsc : Bool
  xs : List Nat

/-- Memory contents the code may find. -/
structure Junk where
  ent : Nat × Nat
  set : Nat × Unit
  tab : Nat → Option Nat
  before : Nat     -- what is in memory just before the elements
  cnt : Nat → Nat  -- counters

/-- 62-67 `fast_sameness` -/
def allSame (x : Cells) : Bool := x.asc && x.dsc

/-- 69-73 `use_sorted` -/
def useSorted (x : Cells) : Bool :=
  if !(x.asc || x.dsc) then false else if x.lw = 6 then x.f64 else 3 ≤ x.lw && x.lw ≤ 5

/-- 74-81 `shift_ne`: each cell is compared to the memory one cell before; then the first bit is set to `r0`. -/
def shiftNe (before : Nat) (r0 : Bool) (xs : List Nat) : List Bool :=
  (List.zipWith (fun a b => decide (a ≠ b)) (before :: xs) xs).set 0 r0

/-- Table lookups in order: each reads entry `low v` and then updates it. -/
def tabRun (low : Nat → Nat) (upd : Nat → Nat) : (Nat → Option Nat) → List Nat → Option (List Nat × (Nat → Option Nat))
  | tab, [] => some ([], tab)
  | tab, v :: vs => (tab (low v)).bind fun r =>
    (tabRun low upd (Radix.upd tab (low v) (some (upd r))) vs).map fun p => (r :: p.1, p.2)

/-- Initialising the entries that will be looked up, or all `tn` entries. -/
def tabInit (sparse : Bool) (tn init : Nat) (low : Nat → Nat) (tab : Nat → Option Nat) (vs : List Nat) : Nat → Option Nat :=
  if sparse then vs.foldl (fun tab v => Radix.upd tab (low v) (some init)) tab
  else fun j => if j < tn then some init else tab j

/-- 196-205, 336-345 `LOOKUP(T)`; `tn = 2^T`, `d` the divisor of the limit for sparse initialisation -/
def lookup (junk : Nat → Option Nat) (T d init : Nat) (upd : Nat → Nat) (xs : List Nat) : Option (List Nat) :=
  (tabRun (· % 2^T) upd (tabInit (8 < T && xs.length < 2^T/d) (2^T) init (· % 2^T) junk xs) xs).map (·.1)

/-! ## radix-assisted lookup -/

def byte2 (v : Nat) : Nat := v / 65536 % 256
def byte3 (v : Nat) : Nat := v / 16777216 % 256
def low16 (v : Nat) : Nat := v % 65536

/-- counters are `usz` -/
abbrev M32 : Nat := 4294967296

/-- 106-117 `radix_offsets_2_usz`; entry 0 is `alloc[0]`, so `c0` begins at 1 and `c1` at 257. The first byte of the result
is the number of bytes to sort by. -/
def offsets (junk : Nat → Nat) (v0 : List Nat) : Nat × (Nat → Nat) :=
  let n := v0.length
  let c : Nat → Nat := fun j => if 1 ≤ j ∧ j < 514 then 0 else junk j
  let c := Radix.countUp M32 257 byte3 (Radix.countUp M32 1 byte2 c v0) v0
  let v := v0.headD 0
  if c (257 + 1 + byte3 v) < n then
    let c := Radix.upd c 257 0
    (2, Radix.sums M32 256 257 0 (Radix.sums M32 256 1 0 c))
  else if c (1 + 1 + byte2 v) < n then (1, Radix.sums M32 256 1 0 c)
  else (0, c)

/-- 131-136: the buckets of `v1`, whose ends are in `c0`; `i` is the current position. -/
def buckets (init : Nat) (upd : Nat → Nat) (tim : Nat) (c : Nat → Nat) (v1 : List Nat) : Nat → (Nat → Option Nat) → Nat → Option (List Nat)
  | 0, _, i => if i < v1.length then none else some []
  | fuel+1, tab, i =>
    if i < v1.length then
      v1[i]?.bind fun v =>
        let l := c (1 + byte2 v)
        if l ≤ v1.length then
          let g := (v1.take l).drop i
          (tabRun low16 upd (tabInit (decide (l - i < tim)) 65536 init low16 tab g) g).bind fun p =>
            (buckets init upd tim c v1 fuel p.2 (if l ≤ i then i else l)).map (p.1 ++ ·)
        else none
    else some []

/-- 143: elements are taken while their upper half is `tv`, and their entries initialised. Gives the table, the group taken,
the rest and the new `tv`. -/
def scanGroup (init : Nat) : (Nat → Option Nat) → Nat → List Nat → Option ((Nat → Option Nat) × List Nat × List Nat × Nat)
  | _, _, [] => none
  | tab, tv, v :: vs =>
    if v / 65536 ≠ tv then some (tab, [], v :: vs, v / 65536)
    else (scanGroup init (Radix.upd tab (low16 v) (some init)) tv vs).map fun r => (r.1, v :: r.2.1, r.2.2)

/-- 142-145; the list is the rest of `v2` with the extra entry at its end. -/
def groups (init : Nat) (upd : Nat → Nat) : Nat → (Nat → Option Nat) → Nat → List Nat → Option (List Nat)
  | 0, _, _, _ => none
  | fuel+1, tab, tv, vs =>
    if vs.length ≤ 1 then some []
    else (scanGroup init tab tv vs).bind fun r =>
      (tabRun low16 upd r.1 r.2.1).bind fun p => (groups init upd fuel p.2 r.2.2.2 r.2.2.1).map (p.1 ++ ·)

/-- 119-151 `RADIX_LOOKUP_32`; `w` is the size of a table entry in bytes. -/
def radixLookup (junk : Junk) (init : Nat) (upd : Nat → Nat) (w : Nat) (v0 : List Nat) : Option (List Nat) :=
  let n := v0.length
  let o := offsets junk.cnt v0
  let tim := 65536 / (64 / w)
  if o.1 = 0 then (tabRun low16 upd (tabInit (decide (n < tim)) 65536 init low16 junk.tab v0) v0).map (·.1)
  else (Radix.move M32 n (1 + byte2 ·) id o.2 (fun _ => none) v0).bind fun m1 => (Radix.read m1.2 0 n).bind fun v1 =>
    if o.1 = 1 then
      (buckets init upd tim m1.1 v1 n junk.tab 0).bind fun r1 =>
        Radix.unmove M32 0 (r1[·]?) (Radix.upd m1.1 0 0) (v0.map byte2)
    else (Radix.move M32 n (257 + byte3 ·) id m1.1 (fun _ => none) v1).bind fun m2 => (Radix.read m2.2 0 n).bind fun v2 =>
      v2.getLast?.bind fun last =>
        (groups init upd (n+1) junk.tab (v2.headD 0 / 65536) (v2 ++ [M32 - 1 - last])).bind fun r2 =>
          (Radix.unmove M32 256 (r2[·]?) (Radix.upd m2.1 256 0) (v1.map byte3)).bind fun r1 =>
            Radix.unmove M32 0 (r1[·]?) (Radix.upd (Radix.upd m2.1 256 0) 0 0) (v0.map byte2)

/-! Places in the memory of the radix method, in bytes from its beginning; the counters take 513 `usz`. -/

/-- `ptr_roundUpToEl` for `u32` -/
def up4 (a : Nat) : Nat := (a + 3) / 4 * 4

/-- 227: `6*n` and `3*n` are computed in `usz` -/
def markSize (n : Nat) : Nat := 6*n % M32 + (4 + (if 65536 > 3*n % M32 then 65536 else 3*n % M32) + 513*4) + 4
/-- 230-238: `c0` is at 4, `c1` at 1028, `k0` at 2052; `v1` is at `k1`, `r2` at `v2`, `tab` at `r1`. -/
def markV2 (n : Nat) : Nat := up4 (2052 + n)
def markK1 (n : Nat) : Nat := markV2 n + 4*(n + 1)
def markR1 (n : Nat) : Nat := markK1 n + n
/-- No buffer ends after the memory requested. -/
def markFits (n : Nat) : Bool := markK1 n + 4*n ≤ markSize n && markR1 n + 65536 ≤ markSize n && markR1 n + n ≤ markSize n

/-- 358: also `4*(tn>n?tn:n)` is computed in `usz` -/
def countSize (n : Nat) : Nat := 6*n % M32 + (4 + 4*(if 65536 > n then 65536 else n) % M32 + 513*4) + 4
/-- 361-369: `k0` is at 2052; `r2` is at `v2`, and `r1` and `tab` at `v1`. -/
def countK1 (n : Nat) : Nat := 2052 + n
def countV2 (n : Nat) : Nat := up4 (countK1 n + n)
def countV1 (n : Nat) : Nat := countV2 n + 4*(n + 1)
def countFits (n : Nat) : Bool := countV1 n + 4*n ≤ countSize n && countV1 n + 4*65536 ≤ countSize n

/-! ## `∊𝕩` -/

/-- 184-192 `BRUTE`: bit `i` is 1 if no earlier cell is the same -/
def bruteMark (xs : List Nat) : List Bool :=
  xs.mapIdx fun i v => if i = 0 then true else (List.range i).foldl (fun c j => c && decide (some v ≠ xs[j]?)) true

/-- 154-286 `memberOf_c1` -/
def memberOf_c1 (hash : Nat → Nat) (junk : Junk) (x : Cells) : Option (List Bool) :=
  let n := x.xs.length
  let bits := Option.map (List.map fun r : Nat => decide (r ≠ 0))
  if n ≤ 1 then some (List.replicate n true)
  else if x.lw = 0 ∨ x.empty then
    let i := if x.empty then n else x.xs.idxOf (1 - x.xs.headD 0)
    some (((List.replicate n false).set 0 true).set i true)
  else if allSame x then some ((List.replicate n false).set 0 true)
  else if useSorted x then some (shiftNe junk.before true x.xs)
  else if x.lw = 3 then
    if n < 8 then some (bruteMark x.xs) else bits (lookup junk.tab 8 64 1 (fun _ => 0) x.xs)
  else if x.lw = 4 then
    if n < 8 then some (bruteMark x.xs) else bits (lookup junk.tab 16 64 1 (fun _ => 0) x.xs)
  else if x.lw = 5 then
    if n < 12 then some (bruteMark x.xs) else if markFits n then bits (radixLookup junk 1 (fun _ => 0) 1 x.xs) else none
  else if x.lw = 6 ∧ x.cmp64 ∧ n < 20 then some (bruteMark x.xs)
  else HTab.markFirsts hash junk.set x.xs

/-! ## `⊒𝕩` -/

/-- 300-308 `COUNT_BOOL`: `n1` ones so far; `i` is the position. Results are stored in signed integers of `w` bits. -/
def countBool (w : Nat) : Nat → Nat → List Nat → List Int
  | _, _, [] => []
  | i, n1, b :: xs => ((if b = 1 then (n1 : Int) else (i : Int) - n1).bmod (2^w)) :: countBool w (i+1) (n1 + if b = 1 then 1 else 0) xs

/-- 326-333 `BRUTE` -/
def bruteCount (xs : List Nat) : List Int :=
  xs.mapIdx fun i v => (((List.range i).foldl (fun c j => c + if some v = xs[j]? then 1 else 0) 0 : Nat) : Int).bmod (2^8)

/-- `⌈\`` -/
def maxScan (m : Nat) : List Nat → List Nat
  | [] => []
  | v :: vs => max m v :: maxScan (max m v) vs

/-- 318-321: `↕∘≠(⊣-⌈\`∘×)` of the marks -/
def sortedCount (marks : List Bool) : List Int :=
  let i := List.range marks.length
  let m := maxScan 0 (List.zipWith (fun c i => if c then i else 0) marks i)
  List.zipWith (fun i m : Nat => (i : Int) - m) i m

/-- 288-393 `count_c1`; counters are unsigned here (an increment past 2^31-1, undefined for the `i32` tables, needs 2^31 equal
cells, and its result is not used); the error for more than 2^31 cells is `some none`. -/
def count_c1 (hash : Nat → Nat) (junk : Junk) (x : Cells) : Option (Option (List Int)) :=
  let n := x.xs.length
  let i32 := Option.map (List.map fun r : Nat => (r : Int).bmod (2^32))
  if n ≤ 1 then some (some (List.replicate n 0))
  else if n > 2147483648 then some none
  else if x.empty then some (some ((List.range n).map fun i : Nat => (i : Int)))
  else Option.map some <|
  if x.lw = 0 then
    some (if n ≤ 128 then countBool 8 0 0 x.xs else if n ≤ 32768 then countBool 16 0 0 x.xs else countBool 32 0 0 x.xs)
  else if useSorted x ∧ n > 16 ∧ (x.lw > 4 ∨ n < 65536) then some (sortedCount (shiftNe junk.before true x.xs))
  else if x.lw = 3 then
    if n < 12 then some (bruteCount x.xs) else i32 (lookup junk.tab 8 16 0 (fun r => (r + 1) % M32) x.xs)
  else if x.lw = 4 then
    if n < 12 then some (bruteCount x.xs) else i32 (lookup junk.tab 16 16 0 (fun r => (r + 1) % M32) x.xs)
  else if x.lw = 5 then
    if n < 20 then some (bruteCount x.xs) else if countFits n then i32 (radixLookup junk 0 (fun r => (r + 1) % M32) 4 x.xs) else none
  else if x.lw = 6 ∧ x.cmp64 ∧ n < 20 then some (bruteCount x.xs)
  else i32 (HTab.occurrence hash junk.ent x.xs)

/-! ## `⊐𝕩` -/

/-- 396-398 `reduceI32WidthBelow`: storing in bits, bytes or 16 bits -/
def reduceBelow (r : List Int) (u : Nat) : List Int :=
  if u ≤ 2 then r.map fun v => v % 2 else if u ≤ 128 then r.map fun v => v.bmod (2^8)
  else if u ≤ 32768 then r.map fun v => v.bmod (2^16) else r

/-- 419-428 `BRUTE` (its first cell is handled apart, with the same effect): `uniq` holds the distinct cells so far; the loop counts how many of them come before an equal one. -/
def bruteClass : List Nat → List Nat → List Int
  | _, [] => []
  | uniq, v :: xs =>
    let s := (uniq.foldl (fun (p : Bool × Nat) u => let c := p.1 && decide (v ≠ u); (c, p.2 + if c then 1 else 0)) (true, 0)).2
    ((s : Int).bmod (2^8)) :: bruteClass (if s = uniq.length then uniq ++ [v] else uniq) xs

/-- 429-435 `DOTAB`: `t==n` compares an `i32` to a `u64`: equal only if `t` is not negative. Also gives `u`. -/
def dotab (n : Nat) (low : Nat → Int) : (Int → Option Int) → Int → List Nat → Option (List Int × Int)
  | _, u, [] => some ([], u)
  | tab, u, v :: xs =>
    (tab (low v)).bind fun t =>
      if t = n then
        (dotab n low (fun k => if k = low v then some u else tab k) (u+1) xs).map fun p => (u :: p.1, p.2)
      else (dotab n low tab u xs).map fun p => (t :: p.1, p.2)

/-- 436-445 `LOOKUP` -/
def lookupClass (junk : Nat → Option Nat) (T : Nat) (xs : List Nat) : Option (List Int) :=
  let n := xs.length
  let tab := tabInit (8 < T && n < 2^T/16) (2^T) n (· % 2^T) junk xs
  (dotab n (fun v => ((v % 2^T : Nat) : Int)) (fun k => if 0 ≤ k then (tab k.toNat).map fun t : Nat => (t : Int).bmod (2^32) else none)
    0 xs).map fun p => reduceBelow p.1 p.2.toNat

/-- A 32-bit cell as a signed integer -/
def asI32 (v : Nat) : Int := (v : Int).bmod (2^32)

/-- 473-481: the table for a small range; `none` if the range is too large. -/
def rangeClass (xs : List Nat) : Option (Option (List Int)) :=
  let n := xs.length
  let mn := xs.foldl (fun m v => if asI32 v < m then asI32 v else m) 2147483647
  let mx := xs.foldl (fun m v => if asI32 v > m then asI32 v else m) (-2147483648)
  let dst := 1 + (mx - mn)
  if dst < n * 5 ∨ dst < 50 then
    some ((dotab n asI32 (fun k => if mn ≤ k ∧ k < mn + dst then some ((n : Int).bmod (2^32)) else none) 0 xs).map fun p =>
      reduceBelow p.1 p.2.toNat)
  else none

/-- 505-514, then `reduceI32WidthBelow` with `ctr`, which is increased with every result that is equal to it -/
def hashClass (hash : Nat → Nat) (junk : Nat × Nat) (xs : List Nat) : Option (List Int) :=
  (HTab.classify hash junk xs).map fun r =>
    reduceBelow (r.map fun v : Nat => (v : Int).bmod (2^32)) (r.foldl (fun m v => if v = m then m + 1 else m) 0)

/-- running sum of bits -/
def sumScan (s : Nat) : List Bool → List Nat
  | [] => []
  | b :: bs => (s + b.toNat) :: sumScan (s + b.toNat) bs

/-- 401-515 `indexOf_c1`; the error for more than 2^31 cells is `some none`. -/
def indexOf_c1 (hash : Nat → Nat) (junk : Junk) (x : Cells) : Option (Option (List Int)) :=
  let n := x.xs.length
  if n ≤ 1 then some (some (List.replicate n 0))
  else if n > 2147483648 then some none
  else if x.empty then some (some (List.replicate n 0))
  else Option.map some <|
  if x.lw = 0 then some (if x.xs.headD 0 % 2 = 1 then x.xs.map fun b : Nat => 1 - (b : Int) else x.xs.map fun b : Nat => (b : Int))
  else if useSorted x ∧ n > 8 then some ((sumScan 0 (shiftNe junk.before false x.xs)).map fun s : Nat => (s : Int))
  else if x.lw = 3 then if n < 12 then some (bruteClass [] x.xs) else lookupClass junk.tab 8 x.xs
  else if x.lw = 4 then if n < 12 then some (bruteClass [] x.xs) else lookupClass junk.tab 16 x.xs
  else if x.lw = 5 then
    if n < 12 then some (bruteClass [] x.xs) else match rangeClass x.xs with
      | some r => r
      | none => hashClass hash junk.ent x.xs
  else if x.lw = 6 ∧ x.cmp64 ∧ n < 16 then some (bruteClass [] x.xs)
  else hashClass hash junk.ent x.xs

/-! ## `⍷𝕩` -/

/-- 517-546 `find_c1` -/
def find_c1 (hash : Nat → Nat) (junk : Junk) (x : Cells) : Option (List Nat) :=
  let n := x.xs.length
  if n ≤ 1 then some x.xs
  else if x.empty ∨ allSame x then some (x.xs.take 1)
  else if x.lw = 0 ∧ x.list then
    let x0 := x.xs.headD 0
    let i := x.xs.idxOf (1 - x0)
    some ([x0, 1 - x0].take (if i < n then 2 else 1))
  else (memberOf_c1 hash junk x).map fun r => ((r.zip x.xs).filter (·.1)).map (·.2)

end Verif.SelfSearch
