import Verif.HTab.Model
/-!
# Model of the dyadic searches `⊐`, `∊` and `⊒` on lists (`/repo/src/builtins/search.c`, default build without Singeli)

The searched-in argument is a list; the other argument is a list too (its shape is carried over, so only the order of its
elements matters) or a single value. Integers, other numbers, characters and other values are distinguished as `equal` does.
Arithmetic primitives called on whole arrays (`=`, `≠`, `×`, `+`, `-`, `∨`) are applied to each element exactly (see
`Verif.Arith` for their own model). Out-of-bounds accesses, and uses of uninitialised table entries, are `none`.
-/
namespace Verif.Search

/-- A BQN value as a search sees it. `real n`: non-integer numbers; `obj n`: everything that is neither number nor character. -/
inductive El where
  | int (i : Int)
  | real (n : Nat)
  | chr (c : Nat)
  | obj (n : Nat)
  deriving DecidableEq

/-- h.h: element types, in the order of the enum. -/
inductive ET where
  | bit | i8 | i16 | i32 | f64 | c8 | c16 | c32 | B
  deriving DecidableEq

/-- the number of the element type -/
def ET.code : ET → Nat
  | .bit => 0 | .i8 => 1 | .i16 => 2 | .i32 => 3 | .f64 => 4 | .c8 => 5 | .c16 => 6 | .c32 => 7 | .B => 8

/-- `elNum` -/
def ET.num (t : ET) : Bool := t.code ≤ 4
/-- `elChr` -/
def ET.chr (t : ET) : Bool := 5 ≤ t.code && t.code ≤ 7

/-- Can the value be stored in an array of that element type? Also the tests `q_bit`, `q_i8`, … of search.c 196-203. -/
def fits : ET → El → Bool
  | .bit, .int i => i == 0 || i == 1
  | .i8, .int i => -128 ≤ i && i < 128
  | .i16, .int i => -32768 ≤ i && i < 32768
  | .i32, .int i => -2147483648 ≤ i && i < 2147483648
  | .f64, .int _ => true
  | .f64, .real _ => true
  | .c8, .chr c => c < 256
  | .c16, .chr c => c < 65536
  | .c32, .chr c => c < 1114112
  | .B, _ => true
  | _, _ => false

structure Arr where
  et : ET
  els : List El

/-- The integer read through a signed pointer of `n` bits at an integer or character element. -/
def rd (n : Nat) : El → Int
  | .int i => i
  | .chr c => (c : Int).bmod (2^n)
  | _ => 0

/-- Storing in a signed integer of `n` bits. -/
def st (n : Nat) (v : Int) : Int := v.bmod (2^n)

/-- search.c 191-229 `indexOfOne`; typed arrays compare raw memory. -/
def indexOfOne (l : Arr) (e : El) : Nat :=
  match l.et with
  | .bit | .f64 | .i32 | .i16 | .i8 => if fits l.et e then l.els.idxOf e else l.els.length
  | .c8 => if fits .c8 e then (l.els.map (rd 8)).idxOf (rd 8 e) else l.els.length
  | .c16 => if fits .c16 e then (l.els.map (rd 16)).idxOf (rd 16 e) else l.els.length
  | .c32 => if fits .c32 e then (l.els.map (rd 32)).idxOf (rd 32 e) else l.els.length
  | .B => l.els.idxOf e

/-- search.c 187-189 `reduceI32Width` -/
def reduceI32Width (r : List Int) (count : Nat) : List Int :=
  if count ≤ 127 then r.map (st 8) else if count ≤ 32767 then r.map (st 16) else r

/-- search.c 92 `elRange`; `elwBitLog` is 0, 3, 4, 5 for the integer types. -/
def elRange : Nat → Nat
  | 0 => 2
  | 1 => 2^8
  | 2 => 2^16
  | _ => 2^32

/-- A lookup table with valid indices `lo ≤ j < hi`; `f j = none` is uninitialised. -/
structure Tab where
  lo : Int
  hi : Int
  f : Int → Option Int

def Tab.set (t : Tab) (j v : Int) : Option Tab :=
  if t.lo ≤ j ∧ j < t.hi then some { t with f := fun k => if k = j then some v else t.f k } else none

/-- Outer `none`: out of bounds. -/
def Tab.raw (t : Tab) (j : Int) : Option (Option Int) := if t.lo ≤ j ∧ j < t.hi then some (t.f j) else none

def Tab.get (t : Tab) (j : Int) : Option Int := (t.raw j).bind id

/-- `memset` of `n` entries from `lo` -/
def Tab.fill (t : Tab) (lo : Int) (n : Nat) (v : Int) : Option Tab :=
  if t.lo ≤ lo ∧ lo + n ≤ t.hi then some { t with f := fun k => if lo ≤ k ∧ k < lo + n then some v else t.f k } else none

/-- search.c 106, 493: initialising only what will be looked up -/
def sparse (v : Int) : Tab → List Int → Option Tab
  | t, [] => some t
  | t, j :: fp => (t.set j v).bind fun t => sparse v t fp

/-- search.c 110-111: from the last index to the first; takes the reversed list. -/
def setLoop (sv : Nat → Int) : Tab → List Int → Option Tab
  | t, [] => some t
  | t, j :: rest => (t.set j (sv rest.length)).bind fun t => setLoop sv t rest

/-- the width of an element as read by the table code: `i8` or `i16` -/
def width (e : Nat) : Nat := if e = 1 then 8 else 16

/-- search.c 94-124 `TABLE`: `ine`, `fore` element types (0 to 2), `n` bits of the table's entries, `same`: the two arrays
are the same object; `junk`: the contents of the new table. -/
def TABLE (junk : Int → Option Int) (ine fore : Nat) (same : Bool) (n : Nat) (init : Int) (sv : Nat → Int) (inp forp : List El) :
    Option (List Int) :=
  let it := elRange ine
  let ft := elRange fore
  let t := if it > ft then it else ft
  let tab : Tab := ⟨-((t/2 : Nat) : Int), ((t - t/2 : Nat) : Int), junk⟩
  let ip := inp.map (rd (width ine))
  let fp := forp.map (rd (width fore))
  let tab1 :=
    if same then some tab
    else if fore = 2 ∧ forp.length < ft / (64/(n/8)) then sparse (st n init) tab fp
    else tab.fill (-((ft/2 - (if ft = 2 then 1 else 0) : Nat) : Int)) ft (st n init)
  tab1.bind fun tab1 => (setLoop (fun i => st n (sv i)) tab1 ip.reverse).bind fun tab2 =>
    if fore = 0 then
      (tab2.get 0).bind fun t0 => (tab2.get 1).map fun t1 => forp.map fun e => if e = .int 0 then t0 else t1
    else HTab.mapO (fun j => tab2.get j) fp

/-- What `CHECK_CHRS_ELSE` (search.c 231-248) decides. -/
inductive Chk where
  | noneFound
  | block (we xe : Nat) (w x : Arr)
  | generic

/-- search.c 231-248 `CHECK_CHRS_ELSE` -/
def checkChrs (w x : Arr) : Chk :=
  if w.et.num = false then
    if w.et.chr then
      if x.et.num then .noneFound
      else if w.et ≠ x.et ∧ w.et.code ≤ 6 ∧ x.et.code ≤ 6 then
        if w.et.code > x.et.code then .block 2 2 w { x with et := .c16 }
        else .block 2 2 { w with et := .c16 } x
      else if x.et.chr then .block (w.et.code - 4) (x.et.code - 4) w x
      else .generic
    else .generic
  else if x.et.num = false then
    if x.et.chr then .noneFound else .generic
  else .block w.et.code x.et.code w x

/-- exact elementwise primitives on integer results -/
def ne (a b : El) : Int := if a = b then 0 else 1
def eq (a b : El) : Int := if a = b then 1 else 0
/-- `∨` on 0 and 1 -/
def or (a b : Int) : Int := a + b - a * b

/-- search.c 305-312: `r = wᵢ≠x × 1+r`, from the last element of `w`. -/
def shortIndex (x : El) : List El → Int
  | [] => 0
  | [a] => ne a x
  | a :: b :: w => ne a x * (1 + shortIndex x (b :: w))

/-- The result array of the generic path: `i32` entries (search.c 348-357). -/
def hashIndex (hash : El → Nat) (junk : El × Nat) (w x : Arr) : Option (List Int) :=
  (HTab.indexOf hash junk w.els x.els).map fun r => reduceI32Width (r.map fun v : Nat => st 32 (v : Int)) w.els.length

/-- Memory contents the code may find: hash table entries and table entries. -/
structure Junk where
  ent : El × Nat
  set : El × Unit
  tab : Int → Option Int

/-- search.c 263-357 `indexOf_c2` for `x` an array of rank at least 1 -/
def indexOf_c2 (hash : El → Nat) (junk : Junk) (same : Bool) (w x : Arr) : Option (List Int) :=
  let wia := w.els.length
  let xia := x.els.length
  if wia = 0 ∨ xia = 0 then some (x.els.map fun _ => (wia : Int))
  else match checkChrs w x with
  | .noneFound => some (x.els.map fun _ => (wia : Int))
  | .generic => hashIndex hash junk.ent w x
  | .block we xe w x =>
    if wia > 32 ∧ xia ≤ (if we ≤ 1 then 1 else 3) then
      some (reduceI32Width (x.els.map fun e => st 32 (indexOfOne w e)) wia)
    else if we = 0 then
      let w0 : El := w.els.headD (.int 0)
      let w1 : El := if w0 = .int 0 then .int 1 else .int 0
      let i := w.els.idxOf w1
      some (x.els.map fun e =>
        let r := st 32 wia * ne w0 e
        if i = wia then r else r - st 32 ((wia : Int) - i) * eq w1 e)
    else if wia ≤ 4 ∧ xia > 16 then some (x.els.map fun e => shortIndex e w.els)
    else if (xia + wia) % 2^32 > 20 ∧ we ≤ 2 ∧ xe ≤ 2 then
      if wia ≤ 127 then TABLE junk.tab we xe same 8 wia (fun i => i) w.els x.els
      else if wia ≤ 32767 then TABLE junk.tab we xe same 16 wia (fun i => i) w.els x.els
      else TABLE junk.tab we xe same 32 wia (fun i => i) w.els x.els
    else hashIndex hash junk.ent w x

/-- search.c 258-262: `w⊐x` for a single `x` -/
def indexOf_unit (w : Arr) (e : El) : Nat := indexOfOne w e

/-- search.c 453-458: generic path, result bits as 0 and 1 -/
def hashMember (hash : El → Nat) (junk : El × Unit) (w x : Arr) : Option (List Int) :=
  (HTab.memberOf hash junk w.els x.els).map fun r => r.map fun b => if b then 1 else 0

/-- search.c 406-408, 427-429: `(w=x₀)∨(w=x₁)∨…` -/
def shortMember (e : El) : List El → Int
  | [] => 0
  | a :: x => x.foldl (fun r v => or r (eq e v)) (eq e a)

/-- search.c 388-463 `memberOf_c2` for `w` an array of rank at least 1: `w∊x` -/
def memberOf_c2 (hash : El → Nat) (junk : Junk) (same : Bool) (w x : Arr) : Option (List Int) :=
  let wia := w.els.length
  let xia := x.els.length
  if wia = 0 ∨ xia = 0 then some (w.els.map fun _ => 0)
  else match checkChrs w x with
  | .noneFound => some (w.els.map fun _ => 0)
  | .generic => hashMember hash junk.set w x
  | .block we xe w x =>
    if xia > 32 ∧ wia ≤ (if xe ≤ 1 then 1 else if xe = 3 then 4 else 6) then
      some (w.els.map fun e => if indexOfOne x e < xia then 1 else 0)
    else if xe = 0 then
      let x0 : El := x.els.headD (.int 0)
      let x1 : El := if x0 = .int 0 then .int 1 else .int 0
      some (w.els.map fun e => if x1 ∈ x.els then or (eq e x0) (eq e x1) else eq e x0)
    else if xia ≤ (if we = 1 then 1 else if we = 2 then 4 else 8) ∧ wia > 16 then
      some (w.els.map fun e => shortMember e x.els)
    else if (xia + wia) % 2^32 > 20 ∧ we ≤ 2 ∧ xe ≤ 2 then
      TABLE junk.tab xe we same 8 0 (fun _ => 1) x.els w.els
    else hashMember hash junk.set w x

/-- search.c 381-384: `w∊x` for a single `w` -/
def memberOf_unit (x : Arr) (e : El) : Bool := indexOfOne x e ≠ x.els.length

/-- search.c 498: `wnext[i]=*p; *p=i`, from the last index to the first; takes the reversed list. Copying an uninitialised
value is harmless. -/
def countSet : Tab → List (Option Int) → List Int → Option (Tab × List (Option Int))
  | t, wnext, [] => some (t, wnext)
  | t, wnext, j :: rest =>
    (t.raw j).bind fun old => (t.set j (st 32 rest.length)).bind fun t => countSet t (old :: wnext) rest

/-- search.c 502: `*p=wnext[rp[i]=*p]`; `tab` entries are `i32`. -/
def countLook (wnext : List (Option Int)) : Tab → List Int → Option (List Int)
  | _, [] => some []
  | t, j :: fp => (t.get j).bind fun v =>
      if v < 0 then none
      else wnext[v.toNat]?.bind fun nx =>
        (if t.lo ≤ j ∧ j < t.hi then some { t with f := fun k => if k = j then nx.map (st 32) else t.f k } else none).bind fun t =>
          (countLook wnext t fp).map (v :: ·)

/-- search.c 486-505: the table path of `⊒`. Boolean arguments have been converted to `i8`. -/
def countTab (junk : Int → Option Int) (we xe : Nat) (w x : List El) : Option (List Int) :=
  let we := if we = 0 then 1 else we
  let xe := if xe = 0 then 1 else xe
  let it := elRange we
  let ft := elRange xe
  let t := if it > ft then it else ft
  let tab : Tab := ⟨-((t/2 : Nat) : Int), ((t - t/2 : Nat) : Int), junk⟩
  let ip := w.map (rd (width we))
  let fp := x.map (rd (width xe))
  let tab1 := if xe = 2 ∧ x.length < ft / 16 then sparse (st 32 w.length) tab fp
    else tab.fill (-((ft/2 : Nat) : Int)) ft (st 32 w.length)
  tab1.bind fun tab1 => (countSet tab1 [some (w.length : Int)] ip.reverse).bind fun r => countLook r.2 r.1 fp

/-- search.c 522-535 with the conversion of the result -/
def hashCount (hash : El → Nat) (junk : El × Nat) (w x : Arr) : Option (List Int) :=
  (HTab.progIndexOf hash junk w.els x.els).map fun r => r.map fun v : Nat => st 32 (v : Int)

/-- search.c 466-540 `count_c2` for lists: `w⊒x` -/
def count_c2 (hash : El → Nat) (junk : Junk) (same : Bool) (w x : Arr) : Option (List Int) :=
  if x.els.length ≤ 1 ∨ w.els.length = 0 then indexOf_c2 hash junk same w x
  else match checkChrs w x with
  | .noneFound => some (x.els.map fun _ => (w.els.length : Int))
  | .generic => (hashCount hash junk.ent w x).map (reduceI32Width · w.els.length)
  | .block we xe w x =>
    (if we ≤ 2 ∧ xe ≤ 2 then countTab junk.tab we xe w.els x.els else hashCount hash junk.ent w x).map
      (reduceI32Width · w.els.length)

end Verif.Search
