import Verif.Ffi.Frame
/-
Calls of foreign functions (C81): what the theorems talk about.  The types of
values in memory, `Ty`, their sizes and `Back` (what reading gives after writing)
are those of `Verif.Ffi.Spec`.
-/
namespace Verif.FfiCall
open Verif.Ffi

mutual
/-- Types as they are written: without sizes and offsets. -/
inductive PTy
  | sc (s : Sc)
  | ptr (e : Ty)
  | repr (base : Option Sc) (r : Re)
  | arr (n : Nat) (e : PTy)
  | str (fs : PFlds)
inductive PFlds
  | nil
  | cons (t : PTy) (rest : PFlds)
end

mutual
/-- What the parser of types checks: arrays have at least one element, and
reinterpretations are not wider than the value. -/
def Good : PTy → Prop
  | .sc _ => True
  | .ptr _ => True
  | .repr b r => r.bits ≤ 8 * baseWidth b
  | .arr n e => 1 ≤ n ∧ Good e
  | .str fs => Goods fs
def Goods : PFlds → Prop
  | .nil => True
  | .cons t rest => Good t ∧ Goods rest
end

/-- The type of an argument of a foreign function: any type whose value is passed
itself, `&e`, `[n]e`, and `*s:r` or `&s:r`. -/
inductive Arg
  | val (t : Ty)
  | mut (e : Ty)
  | arr (n : Nat) (e : Ty)
  | repr (isMut : Bool) (s : Sc) (r : Re)

mutual
/-- The number of pointers in a type. -/
def count : Ty → Nat
  | .ptr _ => 1
  | .agg _ _ fs => counts fs
  | _ => 0
def counts : Flds → Nat
  | .nil => 0
  | .cons _ t rest => count t + counts rest
end

/-- The number of pointers in the type of an argument. -/
def Arg.count : Arg → Nat
  | .val t => FfiCall.count t
  | _ => 1

/-- What a foreign function does to the buffers it gets pointers to: to the `k`-th
buffer with elements of a type, and to the `k`-th buffer of a reinterpreted array,
whose contents are a number. -/
structure Callee where
  mem : Nat → Mem → Mem
  pk : Nat → Nat → Nat

/-- `r` is what is in a buffer with the contents `p`, read as `len` elements. -/
def Elems (r : Re) (len p : Nat) (ys : List V) : Prop :=
  ys.length = len ∧ ∀ (i : Nat) (h : i < ys.length),
    ys[i] = reElem r (p / 2 ^ (i * r.bits) % 2 ^ r.bits)

/-- The values given back for the mutable arguments are what the foreign function
left in their buffers, which held the values given.  `k` is the number of pointers
in the arguments before. -/
def Updated (F : F32) (C : Callee) : Nat → List Arg → List V → List V → Prop
  | _, [], vs, rs => vs = [] ∧ rs = []
  | k, .mut e :: ts, .arr xs :: vs, r :: rs =>
    (∃ m ys, r = .arr ys ∧ ys.length = xs.length ∧
      (∀ (i : Nat) (h : i < xs.length), Plain e xs[i] →
        ∃ y, readAny F e m (i * size e : Nat) = some y ∧ Back F e xs[i] y) ∧
      (∀ (i : Nat) (h : i < ys.length), readAny F e (C.mem k m) (i * size e : Nat) = some ys[i])) ∧
    Updated F C (k + 1) ts vs rs
  | k, .repr true _ re :: ts, .arr xs :: vs, r :: rs =>
    (∃ p zs ys, r = .arr ys ∧ Elems re xs.length p zs ∧
      (∀ (i : Nat) (h : i < xs.length) (h' : i < zs.length), SameAtom xs[i] zs[i]) ∧
      Elems re xs.length (C.pk k p) ys) ∧
    Updated F C (k + 1) ts vs rs
  | k, .mut _ :: ts, .ptr a t :: vs, r :: rs => r = .ptr a t ∧ Updated F C (k + 1) ts vs rs
  | k, .repr true _ _ :: ts, .ptr a t :: vs, r :: rs => r = .ptr a t ∧ Updated F C (k + 1) ts vs rs
  | _, .mut _ :: _, _, _ => False
  | _, .repr true _ _ :: _, _, _ => False
  | k, t :: ts, _ :: vs, rs => Updated F C (k + t.count) ts vs rs
  | _, _ :: _, [], _ => False

/-- No pointer object is given for `&e`, except where `e` is one of the types whose
arrays are passed as they are. -/
def NoPtr : List Arg → List V → Prop
  | .mut e :: ts, v :: vs =>
    (∀ a t, v = .ptr a t → e = .sc .i8 ∨ e = .sc .i16 ∨ e = .sc .i32 ∨ e = .sc .f64) ∧ NoPtr ts vs
  | _ :: ts, _ :: vs => NoPtr ts vs
  | _, _ => True

end Verif.FfiCall
