import Verif.Slash.Compress
import Verif.Sum.Model
/-!
# Model of Indices, Replicate and the inverse of Indices

`/repo/src/builtins/slash.c` 534-838 and 904-1025, with Singeli disabled. `none` is a read or write outside of memory.
Reference counts, shapes and fills are left out, except for the number of elements that is stored in the result.
-/
namespace Verif.Rep
open Verif.Bits Verif.Fold Verif.Slash

/-- A list of numbers. -/
inductive Counts
  | bit (x : Nat → Word) (n : Nat)
  | ints (t : Sum.Ty) (xs : List Int)
  /-- Of doubles (and, as `𝕩`, of objects). `none` is a number that is not an integer. -/
  | any (xs : List (Option Int))

/-- `IA(x)`. -/
def Counts.len : Counts → Nat
  | .bit _ n => n
  | .ints _ xs => xs.length
  | .any xs => xs.length

/-- Its numbers. -/
def Counts.elems : Counts → List (Option Int)
  | .bit x n => (listF x n).map fun b => some (if b then 1 else 0)
  | .ints _ xs => xs.map some
  | .any xs => xs

/-- What an array of a type can hold. -/
def Counts.Ok : Counts → Prop
  | .ints t xs => ∀ v ∈ xs, -2^(t.bits - 1) ≤ v ∧ v ≤ 2^(t.bits - 1) - 1
  | _ => True

def Counts.isBit : Counts → Bool
  | .bit _ _ => true
  | _ => false

/-- A result: an error for the user, or a value. -/
inductive Out (β : Type)
  | ok (r : β)
  | err

def Out.map {β γ} (f : β → γ) : Out β → Out γ
  | .ok r => .ok (f r)
  | .err => .err

/-! ## `usum` (`fold.c` 423-448) -/

/-- 431-438 for doubles and 414-422 `usum_generic` for objects. -/
def usumAny (r : Nat) : List (Option Int) → Sum.UOut
  | [] => .ok r
  | none :: _ => .err
  | some z :: zs => if z < 0 ∨ 2^64 ≤ z then .err else if r + z.toNat < 2^64 then usumAny (r + z.toNat) zs else .err

/-- `usum(x)`. -/
def usumC : Counts → Sum.UOut
  | .bit x n => .ok (bit_sum x n)
  | .ints t xs => Sum.usum t xs
  | .any xs => usumAny 0 xs

/-- `o2s` of every element: `q_usz` holds for the integers from 0 to 2^32-1. -/
def o2sAll : List (Option Int) → Option (List Nat)
  | [] => some []
  | some z :: zs => if z < 0 ∨ 2^32 ≤ z then none else (o2sAll zs).map (z.toNat :: ·)
  | none :: _ => none

/-! ## Loops that write every value a number of times -/

/-- `for (j = 0; j < c; j++) *rp++ = v;`. -/
def fillRun {β} (v : β) : Nat → List β → Nat → Option (List β)
  | 0, m, _ => some m
  | c + 1, m, p => (wr m p v).bind fun m => fillRun v c m (p + 1)

/-- `for (i…) { c = wp[i]; v = …; for (j = 0; j < c; j++) *rp++ = v; }` with `rp` at `p`. -/
def repLoop {β} : List (Nat × β) → List β → Nat → Option (List β)
  | [], m, _ => some m
  | (c, v) :: r, m, p => (fillRun v c m p).bind fun m => repLoop r m (p + c)

/-- `while (xia>0 && !xp[xia-1]) xia--;`. -/
def trimZeros (xs : List Nat) : List Nat := xs.take (go xs xs.length)
where
  go (xs : List Nat) : Nat → Nat
    | 0 => 0
    | n + 1 => if xs.getD n 0 = 0 then go xs n else n + 1

/-- The indices `i` as values. -/
def indLoop {β} (f : Nat → β) (cs : List Nat) (s : Nat) (junk : Nat → β) : Option (List β) :=
  repLoop (cs.zip ((List.range cs.length).map f)) (fresh junk s) 0

/-! ## `slash_c1`, 567-622 -/

/-- `/𝕩`; `sq` is `squeeze_numTry`. -/
def slashC1 (sq : Counts → Counts) (x : Counts) (junk : Nat → Word) : Option (Out Ints) :=
  match usumC x with
  | .ub => none
  | .err => some .err
  | .ok s =>
    if s ≥ 4294967295 then some .err
    else if s = 0 then some (.ok (.i32 []))
    else
      let xia := x.len
      let x := if !x.isBit ∧ s ≤ xia then sq x else x
      let f64s (cs : List Nat) := (indLoop id cs s fun i => (junk i).toNat).map fun m => Out.ok (Ints.f64 m)
      let i32s (cs : List Nat) := (indLoop (BitVec.ofNat 32) cs s fun i => (junk i).setWidth 32).map fun m => Out.ok (Ints.i32 m)
      match x with
      | .bit w _ => (where_ w xia s junk).map .ok
      | .any xs =>
        match o2sAll xs with
        | none => some .err
        | some cs => if xia > 2147483648 then f64s cs else i32s cs
      | .ints _ xs =>
        if xia > 2147483648 then
          match o2sAll (xs.map some) with
          | none => some .err
          | some cs => f64s cs
        else
          -- `DENSE_IND`; `j < c` fails at once for a negative `c`
          let cs := trimZeros (xs.map Int.toNat)
          if cs.length ≤ 128 then (indLoop (BitVec.ofNat 8) cs s fun i => (junk i).setWidth 8).map fun m => .ok (.i8 m)
          else if cs.length ≤ 32768 then (indLoop (BitVec.ofNat 16) cs s fun i => (junk i).setWidth 16).map fun m => .ok (.i16 m)
          else i32s cs

/-! ## Boolean arrays -/

/-- `BOOL_REP_XOR_SCAN`, the inner `while` (543-546), at most `fuel` times: `j` is the index of the group that starts at `ij - wv j`,
`xx` the changes between neighbouring bits from `j` on, `xs` the last bit of the word. -/
def xorGroups (wv : Nat → Option Nat) (x : Nat → Word) (e : Nat) : Nat → Nat → Nat → Word → Word → List Word → Option (Nat × Nat × Word × Word × List Word)
  | fuel, j, ij, xx, xs, m =>
    if ij < e then
      match fuel with
      | 0 => none
      | fuel + 1 =>
        let xx := xx >>> 1
        let j := j + 1
        let (xx, xs) := if j % 64 = 0 then let v := x (j / 64); ((v ^^^ (v <<< 1)) ^^^ xs, v >>> 63) else (xx, xs)
        (m[ij / 64]?).bind fun r =>
        (wr m (ij / 64) (r ^^^ ((-(xx &&& 1#64)) <<< (ij % 64)))).bind fun m =>
        (wv j).bind fun c => xorGroups wv x e fuel j (ij + c) xx xs m
    else some (j, ij, xx, xs, m)

/-- 542: `for (usz i=k/64; i<eb; i++) rp[i]=0;` for `n` words. -/
def zeroWords : Nat → Nat → List Word → Option (List Word)
  | 0, _, m => some m
  | n + 1, i, m => (wr m i 0#64).bind fun m => zeroWords n (i + 1) m

/-- 547: `for (usz i=k/64; i<eb; i++) js=-((rp[i]^=js)>>63);` for `n` words. -/
def carryWords : Nat → Nat → Word → List Word → Option (Word × List Word)
  | 0, _, js, m => some (js, m)
  | n + 1, i, js, m =>
    (m[i]?).bind fun r => (wr m i (r ^^^ js)).bind fun m => carryWords n (i + 1) (-((r ^^^ js) >>> 63)) m

/-- The blocks of 4096 bits, 539-549; `wia` bounds the turns of the inner loop. -/
def xorBlocks (wv : Nat → Option Nat) (x : Nat → Word) (wia s : Nat) : Nat → Nat → Nat → Nat → Word → Word → Word → List Word → Option (List Word)
  | 0, _, _, _, _, _, _, _ => none
  | fuel + 1, k, j, ij, xx, xs, js, m =>
    let e := if 4096 < s - k then k + 4096 else s
    let eb := (e - 1) / 64 + 1
    (zeroWords (eb - k / 64) (k / 64) m).bind fun m =>
    (xorGroups wv x e wia j ij xx xs m).bind fun (j, ij, xx, xs, m) =>
    (carryWords (eb - k / 64) (k / 64) js m).bind fun (js, m) =>
    if e = s then some m else xorBlocks wv x wia s fuel e j ij xx xs js m

/-- `BOOL_REP_XOR_SCAN(WV)`, 534-549. `wv j` is `none` outside of `𝕨`. -/
def boolRepXorScan (wv : Nat → Option Nat) (x : Nat → Word) (wia s : Nat) (m : List Word) : Option (List Word) :=
  let v := x 0
  (wv 0).bind fun c => xorBlocks wv x wia s (s / 4096 + 1) 0 0 c (v ^^^ (v <<< 1)) (v >>> 63) (-(v &&& 1#64)) m

/-- `while (j < e) rp[j++] = v;`. -/
def overWords (v : Word) : Nat → Nat → List Word → Option (List Word)
  | 0, _, m => some m
  | n + 1, j, m => (wr m j v).bind fun m => overWords v n (j + 1) m

/-- A bit on all places: `-(u64)bitp_get(xp,i)`. -/
def spread (x : Nat → Word) (i : Nat) : Word := -((x (i / 64) >>> (i % 64)) &&& 1#64)

/-- The loop of `BOOL_REP_OVER(WV, LEN)`, 553-564, from index `i`. -/
def overLoop (x : Nat → Word) : List Nat → Nat → Nat → Word → Word → Nat → List Word → Option (Nat × Word × Nat × List Word)
  | [], _, ri, rc, _, j, m => some (ri, rc, j, m)
  | c :: cs, i, ri, rc, xc, j, m =>
    let v := spread x i
    let rc := rc ^^^ ((v ^^^ xc) <<< (ri % 64))
    let ri := ri + c
    let e := ri / 64
    if j < e then
      (wr m j rc).bind fun m => (overWords v (e - (j + 1)) (j + 1) m).bind fun m => overLoop x cs (i + 1) ri v v e m
    else overLoop x cs (i + 1) ri rc v j m

/-- `BOOL_REP_OVER(WV, LEN)`, 552-565. -/
def boolRepOver (x : Nat → Word) (cs : List Nat) (m : List Word) : Option (List Word) :=
  (overLoop x cs 0 0 0#64 0#64 0 m).bind fun (ri, rc, j, m) => if ri % 64 ≠ 0 then wr m j rc else some m

/-- The predictable loop for a constant `wv` above 64, 792-805: `n` elements left from `i`. -/
def constLoop (x : Nat → Word) (wv : Nat) : Nat → Nat → Nat → Word → Nat → List Word → Option (List Word)
  | 0, _, ri, c, j, m => if ri % 64 ≠ 0 then wr m j c else some m
  | n + 1, i, ri, c, j, m =>
    let v := spread x i
    let r0 := c ^^^ ((v ^^^ c) <<< (ri % 64))
    let ri := ri + wv
    let e := ri / 64
    (wr m (e - 1) v).bind fun m => (wr m j r0).bind fun m => (overWords v (wv / 64 - 1) (j + 1) m).bind fun m =>
    constLoop x wv n (i + 1) ri v e m

/-! ## `arrW_base` -/

/-- `mut_fillG` on a boolean array; the word after the last one may be stored back unchanged. -/
def bitFill (v : Bool) (l : Nat) (m : List Word) (p : Nat) : Option (List Word) :=
  let s := BitCopy.bit_fill (fun i => m.getD i 0#64) p v l
  if s.log.all (fun i => decide (i < m.length ∨ p + l ≤ 64 * i)) then some ((List.range m.length).map s.mem) else none

/-- 674: `csz==1`, booleans. -/
def bitFills (x : Nat → Word) : List Nat → Nat → List Word → Nat → Option (List Word)
  | [], _, m, _ => some m
  | c :: cs, i, m, p =>
    if c ≠ 0 then (bitFill (bitF x i) c m p).bind fun m => bitFills x cs (i + 1) m (p + c) else bitFills x cs (i + 1) m p

/-- 673: `for(ux j=0;j<c;j++) { mut_copyG(r0, ri, x, i*csz, csz); ri+= csz; }`. `ri` has 32 bits. -/
def copyRun {M} (cpy : M → Nat → Nat → Nat → Option M) (i csz : Nat) : Nat → M → Nat → Option (M × Nat)
  | 0, m, ri => some (m, ri)
  | c + 1, m, ri => (cpy m ri (i * csz) csz).bind fun m => copyRun cpy i csz c m ((ri + csz) % 4294967296)

/-- 673. -/
def copyCells {M} (cpy : M → Nat → Nat → Nat → Option M) (csz : Nat) : List Nat → Nat → M → Nat → Option M
  | [], _, m, _ => some m
  | c :: cs, i, m, ri => (copyRun cpy i csz c m ri).bind fun (m, ri) => copyCells cpy csz cs (i + 1) m ri

/-- The number of elements for which `MAKE_MUT_INIT(r0, ria, …)` has room: `m_harrUp` takes a 32-bit number, the others the whole
number (`mut.c` 4-19). -/
def mutRoom (obj : Bool) (ria : Nat) : Nat := if obj then ria % 4294967296 else ria

/-- The numbers after which a boolean array is too large: `CHECK_BITARR_IA`, `numarr.h` 68. -/
def bitMax : Nat := 4294967295 - 65

/-- 656-692; the total is `s`. `mulOn` on 64 bits; its overflow is not looked at. -/
def arrWBase {α} (cs : List (Option Int)) (s : Nat) (junk : Nat → Word) (d : Nat → α) (x : Data α) : Option (Out (Res α)) :=
  if s ≥ 4294967295 then some .err
  else
    let elems (r : Option (List α)) : Option (Out (Res α)) := r.map fun m => .ok (.elems m)
    let fills (xs : List α) : Option (Out (Res α)) :=
      match o2sAll cs with
      | none => some .err
      | some cs => elems (repLoop (cs.zip xs) (fresh d s) 0)
    let copies (obj : Bool) (csz : Nat) (xs : List α) : Option (Out (Res α)) :=
      let ria := s * csz % 2^64
      match o2sAll cs with
      | none => some .err
      | some cs => elems (copyCells (memCpy xs) csz cs 0 (fresh d (mutRoom obj ria)) 0)
    match x with
    | .bits x =>
      if s > bitMax then some .err
      else match o2sAll cs with
        | none => some .err
        | some cs => (bitFills x cs 0 (fresh junk ((s + 63) / 64)) 0).map fun m => .ok (.bits m)
    | .typed _ xs => fills xs
    | .objs _ xs => fills xs
    | .cells csz xs => copies false csz xs
    | .objCells csz xs => copies true csz xs
    | .bitCells csz x =>
      let ria := s * csz % 2^64
      if ria > bitMax then some .err
      else match o2sAll cs with
        | none => some .err
        | some cs => (copyCells (bitCpy x) csz cs 0 (fresh junk ((ria + 63) / 64)) 0).map fun m => .ok (.bits m)

/-! ## `slash_c2` -/

/-- The cells are copied one by one: `xl>6 || (xl<3 && xl!=0)`. -/
def oddCells {α} : Data α → Bool
  | .cells _ _ => true
  | .objCells _ _ => true
  | .bitCells _ _ => true
  | _ => false

/-- `zeroCells(x)`. -/
def zeroCells {α} : Data α → Res α
  | .bits _ => .bits []
  | .bitCells _ _ => .bits []
  | _ => .elems []

/-- 694-741, for arrays with cells of 1, 8, 16, 32 or 64 bits, not objects. -/
def repTyped {α} (cs : List Nat) (s : Nat) (junk : Nat → Word) (d : Nat → α) : Data α → Option (Out (Res α))
  | .bits x =>
    if s > bitMax then some .err
    else
      let m := fresh junk ((s + 63) / 64)
      if s / 1024 ≤ cs.length then (boolRepXorScan (cs[·]?) x cs.length s m).map fun m => .ok (.bits m)
      else (boolRepOver x cs m).map fun m => .ok (.bits m)
  | .typed _ xs =>
    let cs := trimZeros cs
    if xs.length < cs.length then none else (repLoop (cs.zip xs) (fresh d s) 0).map fun m => .ok (.elems m)
  | _ => none

/-- 667-741: `𝕨` of integers after it was squeezed. -/
def repCounts {α} (w : Counts) (s : Nat) (x : Data α) (junk : Nat → Word) (d : Nat → α) : Option (Out (Res α)) :=
  match w with
  | .bit wp n => (compress wp x n junk d).map .ok
  | w =>
    match x with
    | .objs _ _ => arrWBase w.elems s junk d x
    | _ => repTyped (w.elems.map fun z => (z.getD 0).toNat) s junk d x

/-- 652-669: `𝕨` has the type it will be used with. -/
def repList {α} (sq : Counts → Counts) (w : Counts) (x : Data α) (junk : Nat → Word) (d : Nat → α) : Option (Out (Res α)) :=
  match w with
  | .bit wp n => (compress wp x n junk d).map .ok
  | .any ws =>
    match usumC w with
    | .ub => none
    | .err => some .err
    | .ok s => arrWBase ws s junk d x
  | .ints _ ws =>
    match usumC w with
    | .ub => none
    | .err => some .err
    | .ok s =>
      if s ≥ 4294967295 then some .err
      else if oddCells x then arrWBase (ws.map some) s junk d x
      else if s = 0 then some (.ok (zeroCells x))
      else repCounts (if s ≤ w.len then sq w else w) s x junk d

/-- `if (!elInt(we)) w = squeeze_numTry(w, …)`, 626-629. -/
def squeezeFirst (sq : Counts → Counts) (w : Counts) : Counts :=
  match w with
  | .any _ => sq w
  | _ => w

/-- `𝕨/𝕩` for a list `𝕨`, 626-741. `base`, for a `𝕨` that is not all numbers, is not modelled. -/
def slashC2 {α} (sq : Counts → Counts) (w : Counts) (x : Data α) (xlen : Nat) (junk : Nat → Word) (d : Nat → α) : Option (Out (Res α)) :=
  let w := squeezeFirst sq w
  if w.len = 0 then some (.ok .same)
  else if w.len ≠ xlen then some .err
  else repList sq w x junk d

/-- `𝕨/𝕩` for an integer `𝕨`, 645-649 and 742-838. -/
def slashAtom {α} (wv : Int) (x : Data α) (xlen : Nat) (junk : Nat → Word) (d : Nat → α) : Option (Out (Res α)) :=
  if wv < 0 then some .err
  else
    let wv := wv.toNat
    if wv ≤ 1 then (if wv = 1 ∨ xlen = 0 then some (.ok .same) else some (.ok (zeroCells x)))
    else if xlen = 0 then some (.ok .same)
    else if xlen * wv ≥ 4294967296 then some .err
    else
      let s := xlen * wv
      let cs := List.replicate xlen wv
      -- `IA(x) * wv` has 32 bits
      let copies (csz : Nat) (xs : List α) : Option (Out (Res α)) :=
        (copyCells64 csz xs cs 0 (fresh d (xlen * csz * wv % 4294967296)) 0).map fun m => .ok (.elems m)
      match x with
      | .bits x =>
        if s > bitMax then some .err
        else
          let m := fresh junk ((s + 63) / 64)
          if wv ≤ 64 then (boolRepXorScan (fun _ => some wv) x xlen s m).map fun m => .ok (.bits m)
          else (constLoop x wv xlen 0 0 0#64 0 m).map fun m => .ok (.bits m)
      | .typed _ xs => (repLoop (cs.zip xs) (fresh d s) 0).map fun m => .ok (.elems m)
      | .objs _ xs => (repLoop (cs.zip xs) (fresh d s) 0).map fun m => .ok (.elems m)
      | .cells csz xs => copies csz xs
      | .objCells csz xs => copies csz xs
      | .bitCells csz xb =>
        let ria := xlen * csz * wv % 4294967296
        if ria > bitMax then some .err
        else (copyBits64 csz xb cs 0 (fresh junk ((ria + 63) / 64)) 0).map fun m => .ok (.bits m)
where
  /-- 762-765; here `ri` has 64 bits, but `mut_copyG` takes 32. -/
  run64 {M : Type} (cpy : M → Nat → Nat → Nat → Option M) (i csz : Nat) : Nat → M → Nat → Option (M × Nat)
    | 0, m, ri => some (m, ri)
    | c + 1, m, ri => (cpy m (ri % 4294967296) (i * csz % 4294967296) csz).bind fun m => run64 cpy i csz c m (ri + csz)
  cells64 {M : Type} (cpy : M → Nat → Nat → Nat → Option M) (csz : Nat) : List Nat → Nat → M → Nat → Option M
    | [], _, m, _ => some m
    | c :: cs, i, m, ri => (run64 cpy i csz c m ri).bind fun (m, ri) => cells64 cpy csz cs (i + 1) m ri
  copyCells64 (csz : Nat) (xs : List α) (cs : List Nat) (i : Nat) (m : List α) (ri : Nat) : Option (List α) := cells64 (memCpy xs) csz cs i m ri
  copyBits64 (csz : Nat) (x : Nat → Word) (cs : List Nat) (i : Nat) (m : List Word) (ri : Nat) : Option (List Word) := cells64 (bitCpy x) csz cs i m ri

/-- `ra->ia = s*arr_csz(x)`, 717 and 829: the number of elements stored in a result of cells with `csz` elements each. -/
def storedLength (s csz : Nat) : Nat := s * csz % 4294967296

/-! ## `slash_im`, 908-1025, without SIMD -/

/-- A list of counts. -/
inductive Nums
  | bits (ws : List Word) (n : Nat)
  | ints (r : Ints)

/-- Its numbers. -/
def Nums.elems : Nums → List Int
  | .bits ws n => (listL ws n).map fun b => if b then 1 else 0
  | .ints r => r.elems

/-- `t[xp[i]]++` for all `i`; counters of 32 bits. -/
def countAll : List Nat → List (BitVec 32) → Option (List (BitVec 32))
  | [], t => some t
  | v :: vs, t => (t[v]?).bind fun c => (wr t v (c + 1#32)).bind fun t => countAll vs t

/-- `bitp_set(rp, xp[i], 1)` for all `i`. -/
def setAll : List Nat → List Word → Option (List Word)
  | [], m => some m
  | v :: vs, m => (m[v / 64]?).bind fun w => (wr m (v / 64) (w ||| (1#64 <<< (v % 64)))).bind fun m => setAll vs m

/-- 984-996 `CASE(N)`: elements as unsigned numbers of `N` bits, the greatest of them. -/
def slashImInts (bits : Nat) (xs : List Int) : Option (Out Nums) :=
  let us := xs.map fun v => (BitVec.ofInt bits v).toNat
  match us with
  | [] => none
  | u :: us' =>
    let mx := us'.foldl (fun m c => if c > m then c else m) u
    if 2^(bits - 1) ≤ mx then some .err
    else
      let ria := mx + 1
      (countAll us (List.replicate ria 0#32)).map fun t =>
      if xs.length ≤ 2147483647 then .ok (.ints (.i32 t)) else .ok (.ints (.f64 (t.map (·.toNat))))

/-- 1000: the first loop, as long as the numbers increase: the greatest number so far, how many were read, or an error. -/
def imAscending : List (Option Int) → Int → Nat → Option (Int × Nat)
  | [], mx, i => some (mx, i)
  | none :: _, _, _ => none
  | some c :: cs, mx, i => if c < 0 ∨ 4294967296 ≤ c then none else if c ≤ mx then some (mx, i) else imAscending cs c (i + 1)

/-- 1001: the second loop. -/
def imRest : List (Option Int) → Int → Option Int
  | [], mx => some mx
  | none :: _, _ => none
  | some c :: cs, mx => if c < 0 ∨ 4294967296 ≤ c then none else imRest cs (if c > mx then c else mx)

/-- 997-1014 for doubles. `usz ria = max+1` for 2^32 is undefined in C, and gives 0 on x86-64. -/
def slashImF64 (xs : List (Option Int)) : Option (Out Nums) :=
  match imAscending xs (-1) 0 with
  | none => some .err
  | some (mx, i) =>
    match imRest (xs.drop i) mx with
    | none => some .err
    | some mx =>
      let ria := (mx + 1).toNat % 4294967296
      let us := xs.map fun z => (z.getD 0).toNat
      if ria = 0 then some .err
      else if i = xs.length then
        if ria > bitMax then some .err
        else (setAll us (List.replicate ((ria + 63) / 64) 0#64)).map fun m => .ok (.bits m ria)
      else if xs.length > 2147483647 then some .err
      else (countAll us (List.replicate ria 0#32)).map fun t => .ok (.ints (.i32 t))

/-- `/⁼𝕩`. Results are squeezed, which keeps their elements; so are objects before, which leads to one of the other cases or an error. -/
def slashIm (x : Counts) : Option (Out Nums) :=
  if x.len = 0 then some (.ok (.ints (.i32 [])))
  else match x with
    | .bit x n =>
      let sum := bit_sum x n
      some (.ok (.ints (.f64 (if sum > 0 then [n - sum, sum] else [n - sum]))))
    | .ints t xs => slashImInts t.bits xs
    | .any xs => slashImF64 xs

end Verif.Rep
