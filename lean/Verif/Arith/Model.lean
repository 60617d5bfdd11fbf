import Verif.Arith.Spec
/-!
# Model of typed dyadic arithmetic (`/repo/src/builtins/arithd.c` 127-130 and 231-380)

Arrays are an element type and a list of integers; integer-valued doubles are integers. The arithmetic on two doubles
is a parameter `fop`. Shapes are equal (the rank-equal branch). Signed overflow is the outcome `ub`.
-/
namespace Verif.Arith

/-- Numeric element types, h.h 277-282. -/
inductive El where
  | bit | i8 | i16 | i32 | f64
deriving DecidableEq, Repr

/-- A C value of a signed type of `p` bits; `none` is signed overflow. -/
def ck (p : Nat) (v : Int) : Option Int := if -2^(p-1) ≤ v ∧ v ≤ 2^(p-1) - 1 then some v else none

/-- Which form of `EXPR` a table entry uses: `∨` between two arrays is `bqn_or`, in doubles (arithd.c 11, 317);
against a scalar it is `(wv+xv)-(wv*xv)` on integers (arithd.c 352). -/
inductive Form where
  | aa | sa
deriving DecidableEq

/-- `EXPR` with operands promoted to `p` bits (arithd.c 315-321, 349-355, 371), and stored in a variable of `wk` bits. -/
def cexpr (fop : Op → Int → Int → Int) (f : Form) (op : Op) (p wk : Nat) (a b : Int) : Option Int :=
  match op with
  | .add => (ck p (a + b)).map (·.bmod (2^wk))
  | .sub => (ck p (a - b)).map (·.bmod (2^wk))
  | .mul => (ck p (a * b)).map (·.bmod (2^wk))
  | .and => (ck p (a * b)).map (·.bmod (2^wk))
  | .min => some (if a > b then b else a)
  | .max => some (if a > b then a else b)
  | .or => match f with
    | .aa => ck wk (fop .or a b)
    | .sa => (ck p (a + b)).bind fun s => (ck p (a * b)).bind fun t => (ck p (s - t)).map (·.bmod (2^wk))

/-- Result of an integer loop: a result, a jump to the `BASE` label, or undefined behaviour. -/
inductive Loop where
  | ok (r : List Int) | base | ub
deriving DecidableEq, Repr

/-- arithd.c 128-130 `DOI8`, `DOI16`, `DOI32`: result of `n` bits computed in a variable of `2n` bits; the operands
are promoted to `int` at least. -/
def DOI (fop : Op → Int → Int → Int) (f : Form) (op : Op) (n : Nat) : List Int → List Int → Loop
  | a :: w, b :: x =>
    match cexpr fop f op (if 2*n < 32 then 32 else 2*n) (2*n) a b with
    | none => .ub
    | some rv =>
      if rv ≠ rv.bmod (2^n) then .base
      else match DOI fop f op n w x with
        | .ok r => .ok (rv :: r)
        | o => o
  | _, _ => .ok []

/-- Result of a primitive: element type and elements. -/
inductive Out where
  | arr (e : El) (r : List Int) | ub
deriving DecidableEq, Repr

/-- arithd.c 127 `DOF` -/
def DOF (fop : Op → Int → Int → Int) (op : Op) (w x : List Int) : Out := .arr .f64 (List.zipWith (fop op) w x)

/-- `arith_recd`: calls the scalar function on each pair. -/
def recd (fop : Op → Int → Int → Int) (op : Op) (w x : List Int) : Out := .arr .f64 (List.zipWith (fop op) w x)

/-- A `DOI` statement: `goto dec_ret` on success, `BASE` otherwise. -/
def Loop.orElse (l : Loop) (e : El) (k : Out) : Out :=
  match l with
  | .ok r => .arr e r
  | .base => k
  | .ub => .ub

/-- The `BIT` parameter of arithd.c 315-321: word-wise or (1), and (2), or no boolean path (0). -/
def Op.bit : Op → Nat
  | .mul => 2 | .and => 2 | .or => 1 | .min => 2 | .max => 1 | .add => 0 | .sub => 0

/-- arithd.c 261-273 `bitAA1`, `bitAA2`, on the bits. -/
def bitAA (k : Nat) (w x : List Int) : Out :=
  .arr .bit (List.zipWith (fun a b => if k = 1 then (if a = 1 ∨ b = 1 then 1 else 0) else (if a = 1 ∧ b = 1 then 1 else 0)) w x)

/-- arithd.c 292-312, after the two types have been made equal if one was boolean. -/
def typedAA (fop : Op → Int → Int → Int) (op : Op) (we xe : El) (w x : List Int) : Out :=
  let doi := DOI fop .aa op
  match we, xe with
  | .i32, .i32 => (doi 32 w x).orElse .i32 (DOF fop op w x)
  | .f64, .f64 => DOF fop op w x
  | .i32, .f64 => DOF fop op w x
  | .f64, .i32 => DOF fop op w x
  | .i8, .i8 => (doi 8 w x).orElse .i8 (recd fop op w x)
  | .i16, .i16 => (doi 16 w x).orElse .i16 (recd fop op w x)
  | .i8, .i32 => (doi 32 w x).orElse .i32 (recd fop op w x)
  | .i32, .i8 => (doi 32 w x).orElse .i32 (recd fop op w x)
  | .i16, .i32 => (doi 32 w x).orElse .i32 (recd fop op w x)
  | .i32, .i16 => (doi 32 w x).orElse .i32 (recd fop op w x)
  | .i16, .i8 => (doi 16 w x).orElse .i16 (recd fop op w x)
  | .i8, .i16 => (doi 16 w x).orElse .i16 (recd fop op w x)
  | _, _ => recd fop op w x

/-- arithd.c 275-314 `AR_I_AA` for arrays of equal shape; `iMakeEq` (104-117) widens the boolean side. -/
def arithAA (fop : Op → Int → Int → Int) (op : Op) (we xe : El) (w x : List Int) : Out :=
  match we, xe with
  | .bit, .bit => if op.bit ≠ 0 then bitAA op.bit w x else typedAA fop op .i8 .i8 w x
  | .bit, e => typedAA fop op e e w x
  | e, .bit => typedAA fop op e e w x
  | we, xe => typedAA fop op we xe w x

/-- `q_i8`, `q_i16`, `q_i32` of an integer-valued scalar. -/
def qi (n : Nat) (v : Int) : Bool := decide (-2^(n-1) ≤ v ∧ v ≤ 2^(n-1) - 1)

/-- arithd.c 231-246 `bit_sel1Fn`, 248-253 `REG_SA` and 254-259 `REG_AS`: a scalar against an array; `flip` is the
array-scalar form, where the array is the left argument. A boolean array takes the two scalar results. -/
def arithSA (fop : Op → Int → Int → Int) (op : Op) (flip : Bool) (c : Int) (e : El) (x : List Int) : Out :=
  let cs := x.map fun _ => c
  let doi (n : Nat) := if flip then DOI fop .sa op n x cs else DOI fop .sa op n cs x
  let slow := if flip then recd fop op x cs else recd fop op cs x
  match e with
  | .bit =>
    let e0 := if flip then fop op 0 c else fop op c 0
    let e1 := if flip then fop op 1 c else fop op c 1
    .arr .f64 (x.map fun b => if b = 1 then e1 else e0)
  | .i8 => if qi 8 c then (doi 8).orElse .i8 slow else slow
  | .i16 => if qi 16 c then (doi 16).orElse .i16 slow else slow
  | .i32 => if qi 32 c then (doi 32).orElse .i32 slow else slow
  | .f64 => if flip then DOF fop op x cs else DOF fop op cs x

/-! ## characters -/

/-- Outcome of character arithmetic. -/
inductive COut (α : Type) where
  | ok (r : α) | err | ub
deriving DecidableEq, Repr

/-- `CHR_MAX` (h.h) -/
abbrev CHR_MAX : Nat := 1114111

/-- arithd.c 361-364: one element of character scalar + integer array, `rp[i] = (u32)(xp[i]+(i32)wv)`. -/
def chrAddElem (w : Nat) (x : Int) : COut Nat :=
  match ck 32 (x + w) with
  | none => .ub
  | some v => let r := (v % 2^32).toNat; if r > CHR_MAX then .err else .ok r

/-- arithd.c 326-329: one element of character array - integer array, `rp[i] = (u32)((i32)wp[i] - (i32)xp[i])`. -/
def chrSubElem (w : Nat) (x : Int) : COut Nat :=
  match ck 32 (w - x) with
  | none => .ub
  | some v => let r := (v % 2^32).toNat; if r > CHR_MAX then .err else .ok r

/-- The loops around them. -/
def cmap (f : α → β → COut γ) : List α → List β → COut (List γ)
  | a :: w, b :: x => match f a b with
    | .ub => .ub
    | .err => .err
    | .ok r => match cmap f w x with
      | .ok rs => .ok (r :: rs)
      | o => o
  | _, _ => .ok []

/-- arithd.c 405-406: a character plus an integer-valued number, with `o2i64`: `(u64)(o2cG(w)+o2i64(x)) > CHR_MAX`. -/
def chrAddScalar (w : Nat) (x : Int) : COut Nat :=
  match ck 64 (w + x) with
  | none => .ub
  | some v => let r := (v % 2^64).toNat; if r > CHR_MAX then .err else .ok r

/-- arithd.c 409 -/
def chrSubScalar (w : Nat) (x : Int) : COut Nat :=
  match ck 64 (w - x) with
  | none => .ub
  | some v => let r := (v % 2^64).toNat; if r > CHR_MAX then .err else .ok r

/-- arithd.c 372-379 and 410: difference of two characters, in `i32`. -/
def chrDiff (w x : Nat) : COut Int :=
  match ck 32 ((w:Int) - x) with
  | none => .ub
  | some v => .ok v

end Verif.Arith
