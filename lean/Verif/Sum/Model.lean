/-!
# Model of integer reductions in `/repo/src/builtins/fold.c`: +´, •math.Sum, ×´, ⌊´, ⌈´, ∨´ and `usum`

Elements are integers within the range of the element type. A signed machine accumulator that leaves its range is the
outcome `none` (undefined behaviour). Integer-valued doubles are integers; `f64` addition and multiplication are
parameters (`fadd`, `fmul`), about which the theorems assume only exactness where IEEE arithmetic is exact.
-/
namespace Verif.Sum

/-- Integer element types (`el_i8`, `el_i16`, `el_i32`). -/
inductive Ty where
  | i8 | i16 | i32
deriving DecidableEq, Repr

/-- Number of bits, the parameter `W` of fold.c 102-118. -/
def Ty.bits : Ty → Nat
  | .i8 => 8 | .i16 => 16 | .i32 => 32

/-- Bits of the accumulator `W` in fold.c 68-77 (`SUM_SMALL(i8,i32)`, `SUM_SMALL(i16,i32)`, `SUM_SMALL(i32,i64)`). -/
def Ty.accBits : Ty → Nat
  | .i8 => 32 | .i16 => 32 | .i32 => 64

/-- `s += v` in a signed accumulator of `n` bits. -/
def sadd (n : Nat) (s v : Int) : Option Int :=
  if -2^(n-1) ≤ s + v ∧ s + v ≤ 2^(n-1) - 1 then some (s + v) else none

/-- fold.c 69-73: `for (i) s += x[i]` -/
def accum (n : Nat) (s : Int) : List Int → Option Int
  | [] => some s
  | x :: xs => (sadd n s x).bind fun s => accum n s xs

/-- fold.c 68-77 `sum_small_T` -/
def sum_small (t : Ty) (x : List Int) : Option Int := accum t.accBits 0 x

/-- The parameter `M` of `DEF_INT_SUM`, fold.c 115-117. -/
def Ty.M : Ty → Nat
  | .i8 => 32 | .i16 => 32 | .i32 => 52

/-- fold.c 104: `lim = (1ull<<53) - (1ull<<M)` -/
def Ty.lim (t : Ty) : Int := 2^53 - 2^t.M

/-- fold.c 104: block length `1<<(M-W)` -/
def Ty.blk (t : Ty) : Nat := 2^(t.M - t.bits)

/-- fold.c 108-111: `while (i0>0 && -lim<=c && c<=lim) { e=i0; i0=(i0-1)&~(b-1); c+=sum_small(xp+i0, e-i0); }`, returning
`c` and the remaining `i0`. -/
def blocks (t : Ty) (x : List Int) (c : Int) (i0 : Nat) : Option (Int × Nat) :=
  if h : i0 > 0 ∧ -t.lim ≤ c ∧ c ≤ t.lim then
    let i1 := (i0 - 1) / t.blk * t.blk
    (sum_small t ((x.take i0).drop i1)).bind fun s =>
      (sadd 64 c s).bind fun c => blocks t x c i1
  else some (c, i0)
termination_by i0
decreasing_by
  have h1 : (i0 - 1) / t.blk * t.blk ≤ i0 - 1 := Nat.div_mul_le_self _ _
  have h2 := h.1
  show (i0 - 1) / t.blk * t.blk < i0
  omega

/-- fold.c 113: `while (i0--) r+=xp[i0]` -/
def tailSum (fadd : Int → Int → Int) (x : List Int) (r : Int) : Nat → Int
  | 0 => r
  | i+1 => tailSum fadd x (fadd r (x.getD i 0)) i

/-- fold.c 102-118 `sum_T` with an integral `init` that fits `i64` (`c == init`). The conversion `r = c` of an `i64` to a
double is `fadd c 0`, about which nothing is assumed unless `c` is representable. -/
def sum_T (fadd : Int → Int → Int) (t : Ty) (x : List Int) (init : Int) : Option Int :=
  (blocks t x init x.length).map fun p => tailSum fadd x (fadd p.1 0) p.2

/-- fold.c 304-311: `+´𝕩` for an integer list of more than 2 elements; `sum_small_max = 1<<16` (fold.c 62). -/
def fold_add (fadd : Int → Int → Int) (t : Ty) (x : List Int) : Option Int :=
  if x.length ≤ 2^16 then (sum_small t x).map (fadd · 0) else sum_T fadd t x 0

/-- Outcome of a loop run for a bounded number of steps. -/
inductive Run (α : Type) where
  | done (a : α) | ub | running
deriving DecidableEq, Repr

/-- `sel = xe - el_i8` (fold.c 193); `T` has `2^sel` bytes. -/
def Ty.sel : Ty → Nat
  | .i8 => 0 | .i16 => 1 | .i32 => 2

/-- fold.c 198: the block at byte offset `i<<sel`, computed in `usz` (32 bits), of `ia-i<b? ia-i : b` elements,
`b = sum_small_max = 1<<16`. -/
def sumBlock (t : Ty) (x : List Int) (i : Nat) : List Int :=
  (x.drop ((i * 2^t.sel % 2^32) / 2^t.sel)).take (if x.length - i < 2^16 then x.length - i else 2^16)

/-- fold.c 197-202: the loop of `•math.Sum`; `r` collects multiples of `m = 2^48`, `s` is an `i64`, `i` a `usz`; run
for at most `fuel` iterations. -/
def sumLoop (fadd : Int → Int → Int) (t : Ty) (x : List Int) (i : Nat) (s r : Int) : Nat → Run Int
  | 0 => .running
  | fuel+1 =>
    if i < x.length then
      match (sum_small t (sumBlock t x i)).bind (sadd 64 s) with
      | none => .ub
      | some s =>
        let p := if s ≥ 2^48 then (s - 2^48, fadd r (2^48)) else (s, r)
        let q := if p.1 ≤ -2^48 then (p.1 + 2^48, fadd p.2 (-2^48)) else p
        sumLoop fadd t x ((i + 2^16) % 2^32) q.1 q.2 fuel
    else .done (fadd r s)

/-- fold.c 181-213 `sum_c1` on a non-empty integer list, for `fuel` loop iterations. -/
def sum_c1 (fadd : Int → Int → Int) (t : Ty) (x : List Int) (fuel : Nat) : Run Int :=
  sumLoop fadd t x 0 0 0 fuel

/-- fold.c 217-219 `prod_T`: `while (i--) init*=xp[i]` -/
def prodF (fmul : Int → Int → Int) (x : List Int) (init : Int) : Nat → Int
  | 0 => init
  | i+1 => prodF fmul x (fmul init (x.getD i 0)) i

/-- fold.c 220-227 `prod_int_T`: `mulOn` reports `i32` overflow; then the product restarts in doubles from the value
before the failed step. -/
def prodI (fmul : Int → Int → Int) (x : List Int) (init : Int) : Nat → Int
  | 0 => init
  | ia+1 =>
    let v := init * x.getD ia 0
    if v < -2^31 ∨ 2^31 - 1 < v then prodF fmul x init (ia+1)
    else prodI fmul x (v.bmod (2^32)) ia

/-- fold.c 314-321: `×´𝕩`, `∧´𝕩` of an integer list. -/
def fold_mul (fmul : Int → Int → Int) (x : List Int) : Int := prodI fmul x 1 x.length

/-- fold.c 238-244 `MIN_MAX`: `r = xp[0]; for (i=1..) if (xp[i] C r) r=xp[i]`. -/
def minmax (lt : Int → Int → Bool) (r : Int) : List Int → Int
  | [] => r
  | x :: xs => minmax lt (if lt x r then x else r) xs

/-- fold.c 312-313 `⌊´`, `⌈´`; `none` reads outside an empty list (excluded, length > 2). -/
def fold_min : List Int → Option Int
  | [] => none
  | x :: xs => some (minmax (fun a b => decide (a < b)) x xs)
def fold_max : List Int → Option Int
  | [] => none
  | x :: xs => some (minmax (fun a b => decide (a > b)) x xs)

/-- fold.c 322-326 `∨´` on integers: from the right, stop at the first 1; a value other than 0 and 1 before it leaves
the fast path (`none`). -/
def fold_or (x : List Int) : Nat → Option Bool
  | 0 => some false
  | i+1 => let c := x.getD i 0; if c = 1 then some true else if c ≠ 0 then none else fold_or x i

/-! ## usum -/

/-- Result of `usum`: a total or a BQN error; `ub` is signed overflow. -/
inductive UOut where
  | ok (n : Nat) | err | ub
deriving DecidableEq, Repr

/-- fold.c 414-422 `usum_generic`: errors on a negative element or when the total exceeds `u64`. -/
def usum_generic (r : Nat) : List Int → UOut
  | [] => .ok r
  | c :: cs => if c < 0 then .err else if r + c.toNat < 2^64 then usum_generic (r + c.toNat) cs else .err

/-- The inner loop of fold.c 428-429 over one block: sum `s` in a signed accumulator of `n` bits, `m` or-accumulates
the elements (only its sign is used). -/
def usumBlock (n : Nat) (neg : Bool) (s : Int) : List Int → Option (Bool × Int)
  | [] => some (neg, s)
  | x :: xs => (sadd n s x).bind fun s => usumBlock n (neg || decide (x < 0)) s xs

/-- fold.c 428-429: blocks of `b` elements; the cast to unsigned of `n` bits of a non-negative `s` keeps it. -/
def usumBlocks (n b : Nat) (full : List Int) (r : Nat) (x : List Int) (fuel : Nat) : UOut :=
  match fuel with
  | 0 => .ok r
  | fuel+1 =>
    if x = [] then .ok r
    else match usumBlock n false 0 (x.take b) with
      | none => .ub
      | some (neg, s) =>
        if neg then usum_generic 0 full
        else let r := r + (s % 2^n).toNat
          if r < 2^64 then usumBlocks n b full r (x.drop b) fuel else .err

/-- fold.c 430: the `i32` loop; `addOn(r, p[i])` fails when the exact `r + p[i]` does not fit `u64`. -/
def usumI32 (full : List Int) (neg : Bool) (r : Int) : List Int → UOut
  | [] => if neg then usum_generic 0 full else .ok r.toNat
  | x :: xs =>
    let neg := neg || decide (x < 0)
    if r + x < 0 ∨ 2^64 ≤ r + x then (if neg then usum_generic 0 full else .err) else usumI32 full neg (r + x) xs

/-- fold.c 423-448 `usum` on an integer list (`m` is never reset between blocks; a negative element is acted upon at the
end of its own block, so carrying it over is not needed). -/
def usum (t : Ty) (x : List Int) : UOut :=
  match t with
  | .i8 => usumBlocks 16 (2^8) x 0 x x.length
  | .i16 => usumBlocks 32 (2^16) x 0 x x.length
  | .i32 => usumI32 x false 0 x

end Verif.Sum
