import Verif.Compare.Spec
/-!
# Model of the ordering of values (`/repo/src/core/stuff.h` 350-369, `/repo/src/builtins/compare.c` 4-52)

Shapes with a product over 2^32 do not occur, the computation of `rm` is nevertheless done modulo 2^32. Reading outside of the
elements and running out of recursion depth are `none`. The shortcut for two references to the same array (compare.c 21) is
not modelled: it gives 0, which is what the comparison of an array with itself is shown to give.
-/
namespace Verif.Compare

/-- core/stuff.h 350 -/
def icmp (w x : Int) : Int := (if w > x then 1 else 0) - (if w < x then 1 else 0)

/-- core/stuff.h 351-358, the x86-64 branch: `(w>x) - !(w>=x)` -/
def floatCompare (w x : BitVec 64) : Int :=
  if nan w || nan x then (if nan w then 1 else 0) - (if nan x then 1 else 0)
  else (if key w > key x then 1 else 0) - (if key w ≥ key x then 0 else 1)

/-- compare.c 26-37: from the last axis; gives `rm` and `rc`. Arguments are the shapes in reverse and `rm`. -/
def tails : List Nat → List Nat → Nat → Nat × Int
  | w :: ws, x :: xs, rm =>
    if w = x then tails ws xs (rm * w % 2^32)
    else (rm * (if w < x then w else x) % 2^32, icmp w x)
  | [], [], rm => (rm, 0)
  | [], _ :: _, rm => (rm, -1)
  | _ :: _, [], rm => (rm, 1)

/-- compare.c 47-51: `n` elements, then `rc` -/
def elements (cmp : Val → Val → Option Int) (rc : Int) : Nat → List Val → List Val → Option Int
  | 0, _, _ => some rc
  | n+1, w :: ws, x :: xs => (cmp w x).bind fun c => if c ≠ 0 then some c else elements cmp rc n ws xs
  | _+1, _, _ => none

/-- compare.c 11-18 at `atmW`: an atom and an array; `neg` is `atmNeg`. -/
def atomArray (cmp : Val → Val → Option Int) (neg : Bool) (w : Val) (xs : List Val) : Option Int :=
  match xs with
  | [] => some (if neg then -1 else 1)
  | x :: _ => (cmp w x).map fun c => if (decide (c ≤ 0)).xor neg then -1 else 1

/-- core/stuff.h 365-369 and compare.c 4-52; the first argument limits the recursion depth. -/
def compareN : Nat → Val → Val → Option Int
  | 0, _, _ => none
  | n+1, w, x =>
    match w, x with
    | .num f, .num g => some (floatCompare f g)
    | .chr c, .chr d => some (icmp c d)
    | .num _, .chr _ => some (-1)
    | .chr _, .num _ => some 1
    | .num f, .arr _ xs => atomArray (compareN n) false (.num f) xs
    | .chr c, .arr _ xs => atomArray (compareN n) false (.chr c) xs
    | .arr _ ws, .num g => atomArray (compareN n) true (.num g) ws
    | .arr _ ws, .chr d => atomArray (compareN n) true (.chr d) ws
    | .arr s ws, .arr t xs =>
      let r := tails s.reverse t.reverse 1
      if ws.length = 0 ∨ xs.length = 0 then
        let rc2 := icmp ws.length xs.length
        some (if rc2 ≠ 0 then rc2 else r.2)
      else elements (compareN n) r.2 r.1 ws xs

mutual
/-- How deep arrays are nested. -/
def depth : Val → Nat
  | .num _ => 0
  | .chr _ => 0
  | .arr _ xs => depths xs + 1
def depths : List Val → Nat
  | [] => 0
  | v :: vs => max (depth v) (depths vs)
end

/-- Comparison with a recursion as deep as the arguments need. -/
def compare (w x : Val) : Option Int := compareN (depth w + depth x + 1) w x

end Verif.Compare
