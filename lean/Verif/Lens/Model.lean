import Verif.Lens.Spec
import Verif.Pick.Model
import Verif.Rotate.Model
import Verif.Under.Model
/-!
# Under: model

`src/builtins/sfns.c` 1339-1573, `src/core/derv.c` 102-147, `src/builtins/md2.c` 176-189 and `src/builtins/fns.c` 423-425.
`𝔽` may have any effects. Fills aren't modelled. `rt` is the general definition of Under, written in BQN (`rtUnder_c1` and `rtUnder_cw`), `fail` an error and `ud` undefined behaviour.
-/
namespace Verif.Lens
open Verif.Rotate (prod)
open Verif.Table (T)
open Verif.Pick (Ix pickIdx wrap asInt)
variable {A : Type} {m : Type → Type}

/-- How arrays are stored. An array could be stored in several ways; `kind` is how it happens to be. -/
structure Storage (A : Type) where
  K : Type
  /-- the type of elements of this array -/
  kind : T A → K
  /-- `canStore` -/
  can : K → T A → Bool
  /-- what is read after this value was written into such an array -/
  store : K → T A → T A
  /-- `el_B` -/
  boxed : K → Bool
  /-- `el_or` -/
  or : K → K → K
  /-- `selfElType` -/
  self : T A → K
  /-- `reusable`: nothing else refers to this array -/
  reusable : T A → Bool
  /-- `equal` -/
  eq : T A → T A → Bool

/-- The world of a call. -/
structure Ctx (m : Type → Type) (A : Type) where
  S : Storage A
  fail : ∀ α, m α
  ud : ∀ α, m α
  rt : Fn → (T A → m (T A)) → T A → m (T A)
  /-- contents of fresh memory -/
  junk : Nat → Bool
  fresh : Nat → T A
  /-- whether indices are stored as doubles -/
  fIdx : Bool

variable [Monad m] (C : Ctx m A)

/-- What is known of them: types hold the elements of their arrays, `el_or` holds what either holds, and an error ends the program. -/
structure Ctx.Lawful : Prop where
  store_eq : ∀ k v, C.S.can k v = true → C.S.store k v = v
  kind_can : ∀ x e, e ∈ x.els → C.S.can (C.S.kind x) e = true
  or_left : ∀ k l v, C.S.can k v = true → C.S.can (C.S.or k l) v = true
  or_right : ∀ k l v, C.S.can l v = true → C.S.can (C.S.or k l) v = true
  self_can : ∀ v, C.S.can (C.S.self v) v = true
  eq_iff : ∀ a b, C.S.eq a b = true ↔ a = b
  fail_bind : ∀ {α β : Type} (f : α → m β), C.fail α >>= f = C.fail β

/-- Outcomes of reading an index. -/
def Ctx.out {α β} (o : Pick.Out α) (f : α → m β) : m β :=
  match o with
  | .ok a => f a
  | .err => C.fail _
  | .undef => C.ud _

/-- `pick_oneIndex`, 1339-1360; `.ok none` is `USZ_MAX`. Error messages aren't modelled. -/
def oneIndex (w : Ix) (sh : List Nat) : Pick.Out (Option Nat) :=
  match w with
  | .num _ => .ok none
  | .other => .ok none
  | .ints wsh ns => if ns.length ≠ sh.length ∨ wsh.length ≠ 1 then .ok none else (pickIdx (ns.map some) sh 0).bind fun c => .ok (some c)
  | .floats wsh ns => if ns.length ≠ sh.length ∨ wsh.length ≠ 1 then .ok none else (pickIdx ns sh 0).bind fun c => .ok (some c)
  | .boxed wsh gs =>
    if gs.length ≠ sh.length ∨ wsh.length ≠ 1 then .ok none
    else if (gs.head?.map Ix.isNum) ≠ some true then .ok none
    else (pickIdx (gs.map asInt) sh 0).bind fun c => .ok (some c)

/-- Elements that are copied to an array of type `k`. -/
def copied (S : Storage A) (k : S.K) (xs : List (T A)) : List (T A) := xs.map (S.store k)

/-- `pick_replaceOne`, 1362-1406. -/
def replaceOne (F : T A → m (T A)) (pos : Nat) (sh : List Nat) (xs : List (T A)) : m (T A) :=
  let S := C.S
  let x : T A := .arr sh xs
  match xs[pos]? with
  | none => C.ud _
  | some c => F c >>= fun rep =>
    if S.boxed (S.kind x) then pure (.arr sh (xs.set pos rep))
    else if S.reusable x && S.can (S.kind x) rep then pure (.arr sh (xs.set pos (S.store (S.kind x) rep)))
    else
      let k := S.or (S.kind x) (S.self rep)
      pure (.arr sh (copied S k (xs.take pos) ++ S.store k rep :: copied S k (xs.drop (pos + 1))))

/-- The loop 1437-1441. -/
def indexLoop (sh : List Nat) : List Ix → Pick.Out (Option (List Nat))
  | [] => .ok (some [])
  | g :: gs => (oneIndex g sh).bind fun c => match c with
    | none => .ok none
    | some c => (indexLoop sh gs).bind fun cs => .ok (cs.map (c :: ·))

/-- The elements of an index array, and its shape. -/
def Ix.parts : Ix → List Nat × List Ix
  | .num n => ([], [.num n])
  | .other => ([], [.other])
  | .ints sh ns => (sh, ns.map fun i => .num (some i))
  | .floats sh ns => (sh, ns.map .num)
  | .boxed sh gs => (sh, gs)

/-- The values that `C2(select, w, ⥊x)` gives for good indices (C25). -/
def gather (xs : List (T A)) : List Nat → Option (List (T A))
  | [] => some []
  | p :: ps => (xs[p]?).bind fun v => (gather xs ps).map (v :: ·)

/-- 1443-1446: `select_replace` with elements (C26), and the results of that. -/
def replaceMany (F : T A → m (T A)) (wsh : List Nat) (ps : List Nat) (sh : List Nat) (xs : List (T A)) : m (T A) :=
  match gather xs ps with
  | none => C.ud _
  | some vs => F (.arr wsh vs) >>= fun rep =>
    match rep with
    | .atom _ => C.fail _
    | .arr rsh rs =>
      if rsh ≠ wsh then C.fail _
      else match Under.selectReplace C.S.eq C.fIdx (ps.map fun (p : Nat) => (p : Int)) xs.length (.elems xs rs) C.junk with
        | some (.ok (.elems r)) => pure (.arr sh r)
        | some .err => C.fail _
        | _ => C.ud _

/-- `pick_uc1`, 1408-1411. -/
def pick1 (F : T A → m (T A)) (x : T A) : m (T A) :=
  match x with
  | .atom _ => C.rt (.prim .first) F x
  | .arr sh xs => if xs.length = 0 then C.rt (.prim .first) F x else replaceOne C F 0 sh xs

/-- 1425: `WRAP` of a number. -/
def wrapNum (w : Ix) (n : Nat) : Pick.Out Nat :=
  match w with
  | .num (some i) => match wrap i n with
    | none => .err
    | some p => .ok p
  | _ => .err

/-- `pick_ucw`, 1418-1448. -/
def pick2 (F : T A → m (T A)) (w : Ix) (x : T A) : m (T A) :=
  match x with
  | .atom _ => C.rt (.bound (.pick w)) F x
  | .arr sh xs =>
    if w.isArr = false then
      if sh.length ≠ 1 then C.rt (.bound (.pick w)) F x
      else C.out (wrapNum w xs.length) fun pos => replaceOne C F pos sh xs
    else if sh.length = 0 then C.rt (.bound (.pick w)) F x
    else C.out (oneIndex w sh) fun pos => match pos with
      | some pos => replaceOne C F pos sh xs
      | none => C.out (indexLoop sh (Ix.parts w).2) fun ps => match ps with
        | none => C.rt (.bound (.pick w)) F x
        | some ps => replaceMany C F (Ix.parts w).1 ps sh xs

/-- `takedrop_ucw`, 1450-1476, for an array; `neg` is `wi<0`. -/
def takedrop (neg : Bool) (F : T A → m (T A)) (am : Nat) (sh : List Nat) (xs : List (T A)) : m (T A) :=
  let S := C.S
  let xia := xs.length
  let tk := prod sh.tail * am % 2^32
  let lv := xia - tk
  if tk > xia then C.ud _
  else F (.arr (am :: sh.tail) ((xs.drop (if neg then lv else 0)).take tk)) >>= fun rep =>
    match rep with
    | .atom _ => C.fail _
    | .arr rsh rs =>
      if rsh.length ≠ max 1 sh.length ∨ rsh.head? ≠ some am ∨ rsh.tail ≠ sh.tail then C.fail _
      else
        let k := S.or (S.kind (.arr sh xs)) (S.kind rep)
        pure (.arr sh (if neg then copied S k (xs.take lv) ++ copied S k (rs.take tk) else copied S k (rs.take tk) ++ copied S k ((xs.drop tk).take lv)))

/-- `o2i64` of a number, and the absolute value, 1480-1481, 1490-1491. -/
def amount (n : Option Int) : Pick.Out (Int × Nat) :=
  match n with
  | none => .err
  | some n => if n < -2^63 ∨ n ≥ 2^63 then .err else if n = -2^63 then .undef else .ok (n, n.natAbs)

/-- `m_vec1` -/
def asList : T A → List Nat × List (T A)
  | .atom a => ([1], [.atom a])
  | .arr sh xs => (sh, xs)

/-- `SH(x)[0]`, which is `IA(x)` for a unit. -/
def firstLen (sh : List Nat) (xs : List (T A)) : Nat :=
  match sh with
  | [] => xs.length
  | n :: _ => n

/-- `take_ucw`, 1478-1486, for a number. -/
def take2 (F : T A → m (T A)) (n : Option Int) (x : T A) : m (T A) :=
  C.out (amount n) fun (wi, am) =>
    let (sh, xs) := asList x
    if am > firstLen sh xs then C.fail _ else takedrop C (decide (wi < 0)) F am sh xs

/-- `drop_ucw`, 1488-1497, for a number. -/
def drop2 (F : T A → m (T A)) (n : Option Int) (x : T A) : m (T A) :=
  C.out (amount n) fun (wi, am) =>
    let (sh, xs) := asList x
    let cam := firstLen sh xs
    let am := if am > cam then cam else am
    takedrop C (decide (-wi < 0)) F (cam - am) sh xs

/-- `shape_uc1_t`, 1499-1502. -/
def shapeT (ia : Nat) (r : T A) (f : List (T A) → m (T A)) : m (T A) :=
  match r with
  | .atom _ => C.fail _
  | .arr rsh rs => if rsh.length ≠ 1 ∨ rs.length ≠ ia then C.fail _ else f rs

/-- `shape_uc1`, 1503-1514. -/
def shape1 (F : T A → m (T A)) (x : T A) : m (T A) :=
  match x with
  | .atom a => F (.arr [1] [.atom a]) >>= fun r => shapeT C 1 r fun rs => pure (.arr [] (rs.take 1))
  | .arr sh xs =>
    if sh.length = 0 then F (.arr [xs.length] xs) >>= fun r => shapeT C xs.length r fun rs => pure (.arr [] (rs.take 1))
    else if sh.length = 1 then F (.arr sh xs) >>= fun r => shapeT C xs.length r fun rs => pure (.arr [xs.length] rs)
    else F (.arr [xs.length] xs) >>= fun r => shapeT C xs.length r fun rs => pure (.arr sh (rs.take xs.length))

/-- `shape_ucw`, 1516-1543, with `ash` the shape of `shape_c2(t, w, x)`, whose elements are those of `x`, repeated if there are more (C36). -/
def shape2 (F : T A → m (T A)) (ash : List Nat) (x : T A) : m (T A) :=
  match x with
  | .atom _ => C.rt (.bound (.reshape ash)) F x
  | .arr sh xs =>
    let S := C.S
    let xia := xs.length
    let aia := prod ash
    if aia > xia then C.rt (.bound (.reshape ash)) F x
    else F (.arr ash (xs.take aia)) >>= fun rep =>
      match rep with
      | .atom _ => C.fail _
      | .arr rsh rs =>
        if rsh ≠ ash then C.fail _
        else if xia = aia then pure (.arr sh rs)
        else
          let k := S.or (S.kind x) (S.kind rep)
          pure (.arr sh (copied S k (rs.take aia) ++ copied S k ((xs.drop aia).take (xia - aia))))

/-- The loop of `reverse_c1`, 1212-1216, from the last cell to the first. Cells of one element are moved one by one, with the same result. -/
def revCells {α} (csz : Nat) (xs : List α) : Nat → List α
  | 0 => []
  | n + 1 => (xs.drop (n * csz)).take csz ++ revCells csz xs n

/-- `reverse_c1`, 1165-1219. -/
def reverse1 (x : T A) : m (T A) :=
  match x with
  | .atom _ => C.fail _
  | .arr [] _ => C.fail _
  | .arr (n :: sh) xs => if n ≤ 1 then pure x else pure (.arr (n :: sh) (revCells (prod sh) xs n))

/-- `reverse_c2` with a number (C27). -/
def rotate2 (n : Option Int) (x : T A) : m (T A) :=
  match x with
  | .atom _ => C.fail _
  | .arr sh xs =>
    match Rotate.rotateOne (Rotate.elemKind C.fresh) n xs sh with
    | some (.ok r) => pure (.arr sh r)
    | some .err => C.fail _
    | none => C.ud _

/-- `reverse_ix`, 1546-1551, with a number. -/
def rotateInv (n : Option Int) (x : T A) : m (T A) := rotate2 C (n.map fun v => -v) x

/-- `enclose_im`, 1553-1556. -/
def encloseInv (x : T A) : m (T A) :=
  match x with
  | .atom _ => C.fail _
  | .arr sh xs => if sh.length ≠ 0 then C.fail _ else match xs[0]? with | none => C.ud _ | some e => pure e

/-- `pair_im`, 1558-1561. -/
def pairInv (x : T A) : m (T A) :=
  match x with
  | .atom _ => C.fail _
  | .arr sh xs => if sh.length ≠ 1 ∨ xs.length ≠ 1 then C.fail _ else match xs[0]? with | none => C.ud _ | some e => pure e

/-- `couple_c1`, 1058-1072. -/
def couple1 (x : T A) : m (T A) :=
  match x with
  | .atom a => pure (.arr [1] [.atom a])
  | .arr sh xs => if sh.length = 255 then C.fail _ else pure (.arr (if sh.length = 0 then [xs.length] else 1 :: sh) xs)

/-- `couple_im`, 1564-1567, and `select_c1`, select.c 137-148. -/
def coupleInv (x : T A) : m (T A) :=
  match x with
  | .atom _ => C.fail _
  | .arr [] _ => C.fail _
  | .arr (n :: sh) xs => if n ≠ 1 then C.fail _ else pure (.arr sh (xs.take (prod sh)))

/-- `fn_uc1` of functions. -/
def prim1 (F : T A → m (T A)) (p : P1) (x : T A) : m (T A) :=
  match p with
  | .tack => F x
  | .first => pick1 C F x
  | .deshape => shape1 C F x
  | .reverse => reverse1 C x >>= F >>= reverse1 C
  | .enclose => F (.arr [] [x]) >>= encloseInv C
  | .pair => F (.arr [1] [x]) >>= pairInv C
  | .couple => couple1 C x >>= F >>= coupleInv C

/-- `fn_ucw` of functions. -/
def prim2 (F : T A → m (T A)) (p : P2) (x : T A) : m (T A) :=
  match p with
  | .pick w => pick2 C F w x
  | .take n => take2 C F n x
  | .drop n => drop2 C F n x
  | .reshape sh => shape2 C F sh x
  | .rotate n => rotate2 C n x >>= F >>= rotateInv C n

/-- `fn_uc1`: `md2D_uc1` with `before_uc1`, `fork_uc1` with `ucwWrap_c1`, `atop_uc1` and `atopM2_uc1` with `uc1Wrap_c1`. -/
def uc1 : Fn → (T A → m (T A)) → T A → m (T A)
  | .prim p, F, x => prim1 C F p x
  | .bound p, F, x => prim2 C F p x
  | .fork p h, F, x => uc1 h (fun v => prim2 C F p v) x
  | .atop g h, F, x => uc1 h (fun v => uc1 g F v) x

/-- `under_c1`, md2.c 176-178. -/
def under1 (F : T A → m (T A)) (G : Fn) (x : T A) : m (T A) := uc1 C G F x

/-- An operand `𝔽` that may be called with two arguments, and `v⊸𝔽`, `before_c1` (md2.c), which calls `v` if it can. -/
def before (callable : T A → Option (T A → m (T A))) (F : T A → T A → m (T A)) (v x : T A) : m (T A) :=
  match callable v with
  | none => F v x
  | some f => f x >>= fun w => F w x

/-- `under_c2`, md2.c 179-184; `call` is how `𝔾` is called. -/
def under2 (callable : T A → Option (T A → m (T A))) (call : Fn → T A → m (T A)) (F : T A → T A → m (T A)) (G : Fn) (w x : T A) : m (T A) :=
  call G w >>= fun v => uc1 C G (before callable F v) x

/-- `atopM2_uc1`, derv.c 133-136: `g∘h` with operands that may be no functions. `rt o f g` is the general definition for `o⌾(f∘g)`. -/
def atopM2 {X R : Type} (isFun : X → Bool) (rt impl : X → X → X → R) (o g h : X) : R :=
  if !isFun g || !isFun h then rt g h o else impl o g h

end Verif.Lens
