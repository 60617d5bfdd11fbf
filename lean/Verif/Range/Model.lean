import Verif.Range.Spec
import Verif.BitCopy.Model
/-!
# Range: model

`↕𝕩`, `src/builtins/fns.c` 10-146. Fills and flags aren't modelled. Errors are `none`. In lists, elements that aren't numbers are errors in `o2s` too.
-/
namespace Verif.Range
open Verif.Rotate Verif.BitCopy Verif.Bits

/-- `o2s`, `src/h.h` 516: an integer from 0 to `2⋆32 - 1`. -/
def o2s (v : Int) : Option Nat := if 0 ≤ v ∧ v < 2^32 then some v.toNat else none

/-- What is read from storage of `w` bits after `v` is stored. -/
def wrap (w : Nat) (v : Int) : Int := v.bmod (2^w)

/-- `UD_REC`, 42-60: `pos` are the `d` numbers before. -/
def udRec (w : Nat) (pos : List Int) : List Nat → List (List Int)
  | [] => []
  | [cl] => (List.range cl).map fun (i : Nat) => pos ++ [wrap w i]
  | cl :: s :: sh => (List.range cl).flatMap fun (i : Nat) => udRec w (pos ++ [wrap w i]) (s :: sh)

/-- `bit_reverse64_low`, 66-69 -/
def revLow (x : Word) (n : Nat) : Word := bit_reverse64 x >>> (64 - n)

/-- The first `n` bits of a word, as they are in a bit array. -/
def bits (n : Nat) (x : Word) : List Int := (List.range n).map fun j => if x.getLsbD j then 1 else 0

/-- The loop 112-117. -/
def bitLoop (xia : Nat) (m : Word) : Nat → Word → List (List Int)
  | 0, _ => []
  | n + 1, c => bits xia (revLow (c &&& ~~~m) xia) :: bitLoop xia m n ((c ||| m) + 1#64)

/-- The word that is loaded in 109: whether each length is 2. The bits after that may be anything. -/
def Load (load : List Nat → Word) : Prop := ∀ (sh : List Nat) (j : Nat) (h : j < sh.length), j < 64 → (load sh).getLsbD j = (sh[j] == 2)

/-- 109-110 -/
def mask (load : List Nat → Word) (sh : List Nat) : Word :=
  let m := revLow (~~~(load sh)) sh.length
  if sh.length < 64 then m &&& ((1#64 <<< sh.length) - 1#64) else m

/-- The loop 86-92: `mulOn`, and the least and greatest length. -/
structure Acc where
  ria : Nat
  bad : Bool
  min : Nat
  max : Nat

def Acc.step (a : Acc) (c : Nat) : Acc :=
  ⟨a.ria * c % 2^32, a.bad || decide (a.ria * c ≥ 2^32), if c < a.min then c else a.min, if c > a.max then c else a.max⟩

/-- `list_range`, 71-130 -/
def listRange (load : List Nat → Word) (rank : Nat) (x : List Int) : Option (List Nat × List (List Int)) :=
  if rank ≠ 1 then none
  else if x.length > 255 then none
  else match x.mapM o2s with
    | none => none
    | some [] => some ([], [[]])
    | some (s :: rest) =>
      let a := rest.foldl Acc.step ⟨s, false, s, s⟩
      if (a.bad && a.min != 0) || decide (a.max > 2^31) then none
      else if a.ria = 0 then some (s :: rest, [])
      else if a.max = 2 ∧ (s :: rest).length ≤ 64 then
        some (s :: rest, bitLoop (s :: rest).length (mask load (s :: rest)) a.ria (mask load (s :: rest)))
      else if a.max ≤ 128 then some (s :: rest, udRec 8 [] (s :: rest))
      else if a.max ≤ 32768 then some (s :: rest, udRec 16 [] (s :: rest))
      else some (s :: rest, udRec 32 [] (s :: rest))

/-- `intRange16` and `intRange32`, 10-22: in C the sum is an `int` that is then stored. -/
def intRange (w s n : Nat) : List Int := (List.range n).map fun (i : Nat) => wrap w (wrap w s + wrap w i)

/-- `intRangeF64`, 23-33: blocks of 16, and the rest. -/
def f64Loop : Nat → Nat → List Int
  | 0, _ => []
  | k + 1, c => (List.range 16).map (fun j => Int.ofNat (c + j)) ++ f64Loop k (c + 16)
def intRangeF64 (s n : Nat) : List Int := f64Loop (n / 16) s ++ (List.range (n % 16)).map fun j => Int.ofNat (s + n / 16 * 16 + j)

/-- `ud_c1` of an atom, 134-145, with `intRange`, 34-40. -/
def range (x : Int) : Option (List Int) :=
  (o2s x).map fun n =>
    if n ≤ 128 then (List.range n).map fun (i : Nat) => wrap 8 i
    else if n - 1 ≤ 2^15 - 1 then intRange 16 0 n
    else if n - 1 ≤ 2^31 - 1 then intRange 32 0 n
    else intRangeF64 0 n

end Verif.Range
