import Verif.GroupRt.Spec
/-
`grLen_both` and `grOrd_c2`, `src/builtins/sysfn.c` 158-216, with which the runtime groups along axes and by indices
that `group_simple` (C29) does not take.

Simplified: arguments are lists of integers (both functions assume so); memory is available; results are lists of
numbers, whatever their storage.
-/
namespace Verif.GroupRt

/-- A result, an error, or something without meaning in C. -/
inductive Res
  | val (r : List Nat)
  | oom
  | tooLarge
  | ub
deriving DecidableEq, Repr

/-- `xmaxf` after the loop, 166-170. -/
def maxOf : Int → List Int → Int
  | m, [] => m
  | m, c :: r => maxOf (if c > m then c else m) r

/-- The loop that sets bits, 176-182: `.inr` if one is set already; `none` for a bit outside. -/
def bits : List Bool → List Int → Option (List Bool ⊕ Unit)
  | rp, [] => some (.inl rp)
  | rp, n :: r =>
    if n < -1 then none   -- the assertion
    else if n ≥ 0 then
      match rp[n.toNat]? with
      | none => none
      | some true => some (.inr ())
      | some false => bits (rp.set n.toNat true) r
    else bits rp r

/-- The loop that counts, 188-191; `i32` elements must not overflow. -/
def counts : List Nat → List Int → Option (List Nat)
  | rp, [] => some rp
  | rp, n :: r =>
    if n < -1 then none
    else if n ≥ 0 then
      match rp[n.toNat]? with
      | none => none
      | some v => if v + 1 < 2^31 then counts (rp.set n.toNat (v + 1)) r else none
    else counts rp r

/-- `grLen_both`, 158-193. -/
def grLen (ria : Int) (x : List Int) : Res :=
  if x = [] then
    -- `allZeroes` takes a `usz`
    .val (List.replicate (if ria ≤ 0 then 0 else ria.toNat % 2^32) 0)
  else
    let xmax := maxOf (-1) x
    if xmax ≥ 2^32 - 2 then .oom
    else
      let ria := if xmax > ria - 1 then 1 + xmax else ria
      -- `CHECK_BITARR_IA`, `core/numarr.h` 68
      if ria.toNat > 2^32 - 1 - 65 then .oom
      else
        match bits (List.replicate ria.toNat false) x with
        | none => .ub
        | some (.inl rp) => .val (rp.map fun b => if b then 1 else 0)
        | some (.inr _) =>
          match counts (List.replicate ria.toNat 0) x with
          | none => .ub
          | some rp => .val rp

/-- `tmp`, 204-206: sums before each element, in 32 bits. -/
def sums : Nat → List Nat → List Nat
  | _, [] => []
  | a, v :: r => a :: sums ((a + v) % 2^32) r

/-- `ria`, 207. -/
def total : Nat → List Nat → Nat
  | a, [] => a
  | a, v :: r => total ((a + v) % 2^32) r

/-- The loop, 210-213; `rp` starts with unknown contents. -/
def fill : Nat → List Nat → List Nat → List Int → Option (List Nat)
  | _, _, rp, [] => some rp
  | i, tmp, rp, c :: r =>
    if c ≥ 0 then
      match tmp[c.toNat]? with
      | none => none
      | some p => if p < rp.length then fill (i + 1) (tmp.set c.toNat ((p + 1) % 2^32)) (rp.set p i) r else none
    else fill (i + 1) tmp rp r

/-- `grOrd_c2`, 197-216.  `junk` is what the memory of the result contains. -/
def grOrd (junk : Nat → Nat) (w : List Nat) (x : List Int) : Res :=
  if w = [] then .val []
  -- `return x`, which is empty
  else if x = [] then .val []
  else if x.length ≥ 2^31 - 1 then .tooLarge
  else
    match fill 0 (sums 0 w) ((List.range (total 0 w)).map junk) x with
    | none => .ub
    | some r => .val r

end Verif.GroupRt
