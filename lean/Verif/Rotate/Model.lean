import Verif.Rotate.Spec
import Verif.Under.Model
/-!
# Model of Rotate

`/repo/src/builtins/sfns.c` 1223-1337 `WRAP_ROT`, `rotate_highrank` and `reverse_c2`, and 1546-1551 `reverse_ix`. `none` is a read or write outside
of memory, a division by 0 or a loop that doesn't end. Reference counts and fills are left out.
-/
namespace Verif.Rotate
open Verif.Bits Verif.Fold Verif.Slash Verif.Rep Verif.Select Verif.Under

/-- Arrays of one type in memory, with what is used of `utils/mut.h`. -/
structure Kind (M α : Type) where
  /-- `MAKE_MUT_INIT(r, ia, type)`: not initialised. -/
  new : Nat → M
  /-- `mut_copyG(r, rs, x, xs, l)`, for `x` of the type of `r`. -/
  copy : (r : M) → (rs : Nat) → (x : M) → (xs l : Nat) → Option M
  /-- The element at a position. -/
  get : M → Nat → Option α

/-- Arrays of numbers, characters or objects: elements are copied in order. `d` is the contents of fresh memory. -/
def elemKind {α} (d : Nat → α) : Kind (List α) α := ⟨fun n => fresh d n, fun r rs x xs l => memCpy x r rs xs l, fun m k => m[k]?⟩

/-- Arrays of booleans: `bit_cpyN`. -/
def bitKind (junk : Nat → Word) : Kind (List Word) Bool :=
  ⟨fun n => fresh junk ((n + 63) / 64), fun r rs x xs l => bitCpy (fun i => x.getD i 0#64) r rs xs l, fun m k => getBit m k⟩

/-- `WRAP_ROT(V, L)`, 1223, for `V` of 64 bits; `%` rounds towards 0. -/
def wrapRot (v : Int) (l : Nat) : Option Int :=
  if l ≤ (BitVec.ofInt 64 v).toNat then
    if l = 0 then none
    else
      let v := v.tmod l
      some (if v < 0 then v + l else v)
  else some v

/-- `reverse_c2` with a number `𝕨`, 1321-1337. Products and differences are at most `IA(x)`. -/
def rotateOne {M α} (K : Kind M α) (w : Option Int) (x : M) (sh : List Nat) : Option (Out M) :=
  match sh with
  | [] => some .err
  | cam :: cell =>
    let xia := prod sh
    match o2i64 w with
    | none => some .err
    | some v =>
      if xia = 0 then some (.ok x)
      else
        (wrapRot v cam).bind fun am =>
        if am = 0 then some (.ok x)
        else
          let am := am.toNat * prod cell
          (K.copy (K.new xia) 0 x am (xia - am)).bind fun r => (K.copy r (xia - am) x 0 am).map .ok

/-! ## `rotate_highrank` -/

/-- One axis in `tmp`: `xsh[i]`, `rot[i]`, `xcv[i]` and `pos[i]`. -/
structure Axis where
  len : Nat
  rot : Nat
  skip : Nat
  pos : Nat

/-- 1257-1271: from the last axis that `𝕨` has an amount for down to the first; the axes are given in this order. -/
inductive Found
  /-- `goto lastaxis`. -/
  | first
  /-- The rotated axis with its length and amount, the size of the cells below it, and the axes before it. -/
  | axis (l0 : Nat) (wv : Int) (csz : Nat) (before : List (Nat × Int))

def findAxis : List (Nat × Int) → Nat → Option Found
  | [], _ => none
  | [_], _ => some .first
  | (s, v) :: rest, csz => (wrapRot v s).bind fun wv => if wv ≠ 0 then some (.axis s wv csz rest) else findAxis rest (csz * s)

/-- 1283-1291, from the axis before the rotated one down to the first. Products and sums are less than `IA(x)`. -/
def setup (inv : Bool) : List (Nat × Int) → Nat → Nat → Option (List Axis × Nat)
  | [], _, xi => some ([], xi)
  | (s, v) :: rest, ccsz, xi =>
    (wrapRot v s).bind fun v =>
    let v := (if inv ∧ v ≠ 0 then s - v else v).toNat
    (setup inv rest (ccsz * s) (xi + v * ccsz)).map fun (as, xi) => (⟨s, v, ccsz, v⟩ :: as, xi)

/-- 1300-1306, with the same order of axes: the next position, or `none` for `goto endCopy`. `xi` has 32 bits, and may be negative in between. -/
def advance : List Axis → Nat → Option (List Axis × Nat)
  | [], _ => none
  | a :: rest, xi =>
    let p := a.pos + 1
    let (p, xi) := if a.len = p then (0, (xi + 2^32 - a.skip * p) % 2^32) else (p, xi)
    let xi := (xi + a.skip) % 2^32
    if p ≠ a.rot then some ({ a with pos := p } :: rest, xi)
    else (advance rest xi).map fun (as, xi) => ({ a with pos := p } :: as, xi)

/-- 1297-1309. -/
def copyLoop {M α} (K : Kind M α) (x : M) (n0 n1 rSkip : Nat) : Nat → List Axis → Nat → Nat → M → Option M
  | 0, _, _, _, _ => none
  | fuel + 1, as, xi, ri, r =>
    (K.copy r (ri + n1) x xi n0).bind fun r =>
    (K.copy r ri x (xi + n0) n1).bind fun r =>
    match advance as xi with
    | none => some r
    | some (as, xi) => copyLoop K x n0 n1 rSkip fuel as xi (ri + rSkip) r

/-- `o2i64` for all elements of `𝕨`, 1244-1251. -/
def amounts : List (Option Int) → Option (List Int)
  | [] => some []
  | w :: ws => (o2i64 w).bind fun v => (amounts ws).map (v :: ·)

/-- `rotate_highrank`, 1224-1320, with a list `𝕨`; `sh` is the shape of `𝕩`. Elements of `𝕨` that are no numbers are `none`. -/
def rotateMany {M α} (K : Kind M α) (inv : Bool) (ws : List (Option Int)) (x : M) (sh : List Nat) : Option (Out M) :=
  match sh with
  | [] => if ws.length ≠ 0 then some .err else some (.ok x)
  | _ =>
    let lastaxis (w : Option Int) := rotateOne K (w.map fun v => if inv then -v else v) x sh
    match ws with
    | [w] => lastaxis w
    | _ =>
      if ws.length > sh.length then some .err
      else
        match ws with
        | [] => some (.ok x)
        | w :: _ =>
          match amounts ws with
          | none => some .err
          | some vs =>
            if prod sh = 0 then some (.ok x)
            else
              (findAxis (List.zip sh vs).reverse 1).bind fun
                | .first => lastaxis w
                | .axis l0 wv csz before =>
                  let rot0 := (if inv then l0 - wv else wv).toNat
                  let csz := csz * prod (sh.drop ws.length)
                  (setup inv before (csz * l0) 0).bind fun (as, xi) =>
                  (copyLoop K x (csz * rot0) (csz * (l0 - rot0)) (csz * l0) (prod sh) as xi 0 (K.new (prod sh))).map .ok

/-- `reverse_ix`, 1546-1551, for a number. -/
def rotateOneInv {M α} (K : Kind M α) (w : Option Int) (x : M) (sh : List Nat) : Option (Out M) := rotateOne K (w.map fun v => -v) x sh

end Verif.Rotate
