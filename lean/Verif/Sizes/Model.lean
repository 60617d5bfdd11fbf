/-!
# Model of the computations of result sizes

Numbers of elements and axis lengths are of type `usz`, 32 bits without a sign (`/repo/src/h.h` 157-176 with the default `USZ_64=0`). Each function computes the number of elements
that is allocated and the shape that is set for one primitive. Values are left out.
-/
namespace Verif.Sizes

/-- The number of values of `usz`. -/
abbrev U : Nat := 2 ^ 32

/-- The result of a size computation: an error, an access to memory outside of any object, or the count of elements to allocate and the shape to set. -/
inductive Sz
  | error
  | outside
  | made (ia : Nat) (sh : List Nat)
deriving DecidableEq, Repr

/-- `mulOn(V,X)` for a `usz` `V`, stuff.h 234: the product in 32 bits, and whether it does not fit. -/
def mulOn (a b : Nat) : Nat × Bool := (a * b % U, decide (U ≤ a * b))

/-- `shProd`, stuff.h 175-179. -/
def shProd (sh : List Nat) : Nat := sh.foldl (fun r l => r * l % U) 1

/-! ## Reshape: shape_c2_listw, sfns.c 250-313 -/

/-- An item of `𝕨`: a length, or one of the functions `∘ ⌊ ⌽ ↑`. -/
inductive Ax
  | len (n : Nat)
  | atop | floor | rev | take
deriving DecidableEq, Repr

/-- The state of the loop 264-281. -/
structure Rs where
  nia : Nat
  bad : Bool
  good : Bool
  unk : Option Ax
deriving DecidableEq, Repr

/-- The loop 264-281; `none` is an error. -/
def reshapeLoop (xia : Nat) : List Ax → Rs → Option Rs
  | [], s => some s
  | .len v :: w, s => reshapeLoop xia w { s with nia := (mulOn s.nia v).1, bad := s.bad || (mulOn s.nia v).2, good := s.good || v = 0 }
  | a :: w, s => if s.unk ≠ none then none else reshapeLoop xia w { s with unk := some a, good := s.good || xia = 0 || a = .floor }

/-- The shape with the computed axis. -/
def setAxis (item : Nat) : Ax → Nat
  | .len v => v
  | _ => item

/-- `shape_c2_listw` after the checks of the rank of `𝕨`, for `𝕩` of `xia` elements. -/
def reshape (w : List Ax) (xia : Nat) : Sz :=
  match reshapeLoop xia w ⟨1, false, false, none⟩ with
  | none => .error
  | some s =>
    if s.bad && !s.good then .error
    else
      match s.unk with
      | none => .made s.nia (w.map (setAxis 0))
      | some a =>
        if s.nia = 0 then .error
        else
          let div := xia / s.nia
          let mod := xia % s.nia
          if a = .atop ∧ mod ≠ 0 then .error
          else
            let item := if a = .atop ∨ a = .floor then div else if mod ≠ 0 then (div + 1) % U else div
            if (mulOn s.nia item).2 then .error else .made (mulOn s.nia item).1 (w.map (setAxis item))

/-! ## Range: list_range, fns.c 70-101 -/

/-- The loop 85-92: the product, whether it did not fit, the smallest and the largest. -/
def rangeLoop : List Nat → Nat × Bool × Nat × Nat → Nat × Bool × Nat × Nat
  | [], s => s
  | c :: x, (ria, bad, min, max) => rangeLoop x ((mulOn ria c).1, bad || (mulOn ria c).2, if c < min then c else min, if c > max then c else max)

/-- `↕𝕩` for a list, fns.c 70-101. -/
def range : List Nat → Sz
  | [] => .made 1 []
  | c :: x =>
    match rangeLoop x (c, false, c, c) with
    | (ria, bad, min, max) => if (bad ∧ min ≠ 0) ∨ max > 2 ^ 31 then .error else .made ria (c :: x)

/-! ## Windows: ud_c2, fns.c 150-198 -/

/-- The loop 175-181: the frame, and whether it is empty; `none` is an error. -/
def windowLoop : List Nat → List Nat → Option (List Nat × Bool)
  | m :: w, l :: x =>
    let l := (l + 1) % U
    if l < m then none
    else (windowLoop w x).map fun (f, e) => (((l + U - m) % U) :: f, e || m = 0 || m = l)
  | _, _ => some ([], false)

/-- Products with `mulOn`, 195-198; `none` is an error. -/
def mulAll : List Nat → Nat → Option Nat
  | [], r => some r
  | l :: sh, r => if (mulOn r l).2 then none else mulAll sh (mulOn r l).1

/-- `𝕨↕𝕩`, where `x` is the shape of `𝕩`. The case of pairs 188-191 gets its elements from `2/𝕩`, and its shape is of twice as many, less two. -/
def windows (w x : List Nat) : Sz :=
  if w = [] then .made (shProd x) x
  else if x.length < w.length ∨ 255 < x.length + w.length then .error
  else
    match windowLoop w x with
    | none => .error
    | some (f, e) =>
      if e || shProd x = 0 then .made 0 (f ++ w ++ x.drop w.length)
      else if w = [2] ∧ x.length = 1 then
        if (mulOn (shProd x) 2).2 then .error else .made ((mulOn (shProd x) 2).1 - 2) (f ++ w)
      else
        match (mulAll (x.drop w.length) 1).bind (mulAll (f ++ w)) with
        | none => .error
        | some ria => .made ria (f ++ w ++ x.drop w.length)

/-! ## Table, take and drop, couple, merge -/

/-- `𝕨F⌜𝕩`, md1.c 73-79; `ur` has 8 bits. -/
def table (w x : List Nat) : Sz :=
  if (mulOn (shProd w) (shProd x)).2 then .error
  else if (w.length + x.length) % 256 < x.length then .error
  else .made (mulOn (shProd w) (shProd x)).1 (w ++ x)

/-- `n↑𝕩` and `(-n)↑𝕩`, for the magnitude `n` and the shape `l :: cell` of `𝕩`, sfns.c 689-735. -/
def take (n l : Nat) (cell : List Nat) : Sz :=
  let csz := if cell = [] then 1 else shProd cell
  if U ≤ n * csz then .error
  else .made (n * csz) (if cell = [] then [n] else (n % U) :: cell)

/-- `n↓𝕩` and `(-n)↓𝕩`, sfns.c 736-757. -/
def drop (n l : Nat) (cell : List Nat) : Sz :=
  let csz := if cell = [] then 1 else shProd cell
  let xia := shProd (l :: cell)
  if 2 ^ 63 ≤ n * csz then .error
  else
    let ia := if xia ≤ n * csz then 0 else xia - n * csz
    .made ia (if cell = [] then [ia] else (if l ≤ n then 0 else l - n) :: cell)

/-- The loop 559-573 of `takedrop_highrank`: the product, `bad`, `good` and the shape. `w` is the magnitudes, padded for the axes that `𝕨` does not have; `x` is the shape, padded with ones. -/
def tdLoop (isTake : Bool) : List Nat → List Nat → Nat × Bool × Bool → (Nat × Bool × Bool) × List Nat
  | n :: w, l :: x, (ria, bad, good) =>
    let c := if isTake then n else if l ≤ n then 0 else l - n
    let r := tdLoop isTake w x ((mulOn ria c).1, bad || (mulOn ria c).2, good || c = 0)
    (r.1, (c % U) :: r.2)
  | _, _, s => (s, [])

/-- The sizes of `takedrop_highrank`, sfns.c 526-576, for `𝕨` of two or more magnitudes. -/
def takedrop (isTake : Bool) (w x : List Nat) : Sz :=
  let rr := if x.length > w.length then x.length else w.length
  let xp := List.replicate (rr - x.length) 1 ++ x
  let wp := w ++ (if isTake then xp.drop w.length else List.replicate (rr - w.length) 0)
  match tdLoop isTake wp xp (1, false, false) with
  | ((ria, bad, good), sh) => if bad && !good then .error else if ria > 2 ^ 31 - 1000 then .error else .made ria sh

/-- `𝕨≍𝕩` for equal shapes, sfns.c 1073-1086. -/
def couple (sh : List Nat) : Sz := if sh.length = 255 then .error else .made (shProd sh * 2 % U) (2 :: sh)

/-- `>𝕩` for a nonempty array of the shape `rsh0` with items of the shape `xsh`, `apd_sh_init`, mut.c 654-690. -/
def merge (rsh0 xsh : List Nat) : Sz :=
  let ria := shProd rsh0
  if xsh = [] then .made ria rsh0
  else if 255 < rsh0.length + xsh.length then .error
  else if (mulOn ria (shProd xsh)).2 then .error else .made (mulOn ria (shProd xsh)).1 (rsh0 ++ xsh)

/-! ## Join: join_c1, sfns.c 760-846 -/

/-- The state of the loop 798-831. `esh` is the shape of the cells; `esh0` is the item before it in memory. `esh` is `none` for `NULL`. -/
structure Js where
  rm : Nat
  rr : Nat
  rd : Nat
  esh : Option (List Nat)
  esh0 : Nat
  cam : Nat
deriving DecidableEq, Repr

/-- The loop 798-831 over the items from the one at `i` on; items are given by their shapes, `[]` for atoms and units. `seen` is the shapes of the items from 1 to `i-1`. -/
def joinLoop : List (List Nat) → Nat → List (List Nat) → Js → Except Sz Js
  | [], _, _, s => .ok s
  | c :: x, i, seen, s =>
    let cr := c.length
    if cr = 0 then
      if s.rm > 1 then .error .error else joinLoop x (i + 1) (seen ++ [c]) { s with rd := s.rm, cam := (s.cam + 1) % U }
    else
      let cd := (s.rm + 256 - cr) % 256
      let s1 : Except Sz Js :=
        if cd > s.rd then
          if (cd + 1 + 256 - s.rd) % 256 > 2 - s.rd then .error .error
          else
            let s2 : Except Sz Js :=
              if cr > s.rr then
                match s.esh with
                | none => .error .outside
                | some e => if seen.all (fun y => y.head? = some s.esh0) then .ok { s with esh := some (s.esh0 :: e), rr := cr, cam := i } else .error .error
              else .ok s
            s2.map fun s => { s with rm := if cr > s.rm then cr else s.rm, rd := 1 }
        else .ok s
      match s1 with
      | .error e => .error e
      | .ok s =>
        let t := if cr < s.rm then c else c.drop 1
        let s := { s with cam := (s.cam + if cr < s.rm then 1 else c.headD 0) % U }
        if t.take (s.rm - 1) = (s.esh.getD []).take (s.rm - 1) then joinLoop x (i + 1) (seen ++ [c]) s else .error .error

/-- `∾𝕩` for a nonempty list of items with the given shapes, sfns.c 780-846. -/
def joinList : List (List Nat) → Sz
  | [] => .error
  | x0 :: x =>
    let s0 : Js := if x0.length = 0 then ⟨0, 1, 0, none, 0, 1⟩ else ⟨x0.length, x0.length, 0, some (x0.drop 1), x0.headD 0, x0.headD 0⟩
    match joinLoop x 1 [] s0 with
    | .error e => e
    | .ok s =>
      if s.rm = 0 then .error
      else
        let esh := (s.esh.getD []).take (s.rr - 1)
        .made (s.cam * shProd esh % U) (s.cam :: esh)

/-- The end of `∾𝕩` for arrays of rank two or more, sfns.c 933-973: `st` is the total lengths along each axis of `𝕩` (sums in 32 bits), and `csh` is the shape of the cells. -/
def joinArray (lens : List (List Nat)) (csh : List Nat) : Sz :=
  let st := lens.map fun ll => ll.foldl (fun r l => (r + l) % U) 0
  if (mulOn (shProd st) (shProd csh)).2 then .error else .made (mulOn (shProd st) (shProd csh)).1 (st ++ csh)

end Verif.Sizes
