import Verif.Rotate.Spec
/-!
# Cells and Rank: specification

Arrays with elements of any type `E`, their cells, and what `˘` and `⎉` do with an operand that may have effects: `m` is any monad.
-/
namespace Verif.Cells
open Verif.Rotate (prod InShape ravel)

/-- An array: its shape, and its elements in the order of their indices. -/
structure Arr (E : Type) where
  sh : List Nat
  els : List E

/-- A value: an array or not. -/
inductive Val (E : Type)
  | atom (e : E)
  | arr (a : Arr E)

variable {E : Type}

/-- Atoms have no axes. -/
def Val.sh : Val E → List Nat
  | .atom _ => []
  | .arr a => a.sh

def Val.els : Val E → List E
  | .atom e => [e]
  | .arr a => a.els

/-- As many elements as the shape says. -/
def Full (a : Arr E) : Prop := a.els.length = prod a.sh

/-- `c` is the cell of `x` at the index `fi` of its leading axes: its shape is that of the other axes, and its elements are those whose index begins with `fi`. -/
def IsCell (x : Arr E) (fi : List Nat) (c : Arr E) : Prop :=
  c.sh = x.sh.drop fi.length ∧ Full c ∧ ∀ ci, InShape c.sh ci → c.els[ravel c.sh ci]? = x.els[ravel x.sh (fi ++ ci)]?

/-- Cell number `i` when there are `k` leading axes: the elements from `i` times the size of a cell on. -/
def cellAt (x : Arr E) (k i : Nat) : Arr E :=
  ⟨x.sh.drop k, (x.els.drop (i * prod (x.sh.drop k))).take (prod (x.sh.drop k))⟩

/-- What a call gives: an array, or an error. `undef` is undefined behaviour. -/
inductive Out (E : Type)
  | ok (a : Arr E)
  /-- results of different shapes -/
  | shapes
  /-- too many axes -/
  | rank
  /-- the leading axes of the arguments differ -/
  | frames
  /-- `𝕘` isn't one to three whole numbers -/
  | badRank
  /-- a cell of an empty argument is too large -/
  | large
  | undef

/-- The results are put together along the leading axes `fr`. That they are is C53. -/
def merge (fr : List Nat) : List (Val E) → Out E
  | [] => .undef
  | r :: rs =>
    if fr.length > 0 ∧ fr.length + r.sh.length > 255 then .rank
    else if rs.all (fun v => v.sh == r.sh) then .ok ⟨fr ++ r.sh, (r :: rs).flatMap Val.els⟩
    else .shapes

/-- A number: an integer, infinite, or neither. -/
inductive Num
  | int (i : Int)
  | inf (pos : Bool)
  | frac

/-- What `𝕘` gives: a number, or a list, of which some elements may not be numbers, or neither. -/
inductive G
  | num (n : Num)
  | list (ns : List (Option Num))
  | other

/-- Which number counts: with one argument, for `𝕨`, and for `𝕩`. -/
inductive Side | only | left | right

/-- A whole number. -/
def Num.whole : Num → Bool
  | .frac => false
  | _ => true

/-- One number counts for everything, of two the first is for `𝕨` and the second for `𝕩`, and of three the first is for a single argument. All of them have to be whole numbers. -/
def asked (s : Side) : G → Option Num
  | .num n => if n.whole then some n else none
  | .list [some a] => if a.whole then some a else none
  | .list [some b, some c] => if b.whole && c.whole then some (match s with | .left => b | _ => c) else none
  | .list [some a, some b, some c] => if a.whole && b.whole && c.whole then some (match s with | .only => a | .left => b | .right => c) else none
  | _ => none

/-- The number of axes of a cell of an array with `r` axes: negative numbers count from there, and it's between none and all. -/
def cellRank (r : Nat) : Num → Nat
  | .int i => if i < 0 then (r + i).toNat else min i.toNat r
  | .inf true => r
  | _ => 0

/-- The number of leading axes. Atoms have none. -/
def frameOf (n : Num) (v : Val E) : Nat := v.sh.length - cellRank v.sh.length n

/-- Result number `i` of those with leading axes `z` needs this cell: the one whose index is the beginning of the index in `z`. -/
def argCell (v : Val E) (k : Nat) (z : List Nat) (i : Nat) : Val E :=
  match v with
  | .atom e => .atom e
  | .arr a => .arr (cellAt a k (i / prod (z.drop k)))

/-- One of the lists begins with the other one. -/
def Agree (s t : List Nat) : Prop := s.take (min s.length t.length) = t.take (min s.length t.length)

instance (s t : List Nat) : Decidable (Agree s t) := by unfold Agree; exact inferInstance

def longer (s t : List Nat) : List Nat := if s.length > t.length then s else t

/-- An operand: what a call does, and for functions without effects what it gives, `none` being an error. -/
structure Operand (m : Type → Type) (A E : Type) where
  run : A → m (Val E)
  safe : Option (A → Option (Val E))

/-- Some leading axes of the shape have 2⋆32 elements or more. -/
def tooLarge (c : List Nat) : Bool := (List.range (c.length + 1)).any fun j => prod (c.take j) ≥ 2^32

/-- A cell of fills in place of a cell. An argument without leading axes stays. -/
def fillCell (fill : Arr E → E) (v : Val E) (k : Nat) : Option (Val E) :=
  match v with
  | .atom e => some (.atom e)
  | .arr a => if k = 0 then some (.arr a) else if tooLarge (a.sh.drop k) then none else some (.arr ⟨a.sh.drop k, List.replicate (prod (a.sh.drop k)) (fill a)⟩)

/-- The result when there are no cells: of functions without effects the shape that the result for cells of fills has is known, if there is one. -/
def emptyResult {A : Type} (z : List Nat) (safe : Option (A → Option (Val E))) (arg : Option A) : Out E :=
  match safe, arg with
  | none, _ => .ok ⟨z, []⟩
  | some _, none => .large
  | some p, some a =>
    match p a with
    | none => .ok ⟨z, []⟩
    | some rc => if z.length + rc.sh.length > 255 then .rank else .ok ⟨z ++ rc.sh, []⟩

/-- `𝕘`: a value, or a function of the arguments. -/
inductive GArg (m : Type → Type) (A : Type)
  | val (g : G)
  | fn (h : A → m G)

/-- What `𝕘` gives: a function is called on the arguments, once. -/
def given {m : Type → Type} [Monad m] {A : Type} (g : GArg m A) (a : A) : m G :=
  match g with
  | .val v => pure v
  | .fn h => h a

/-- The operand is called on every cell, in order, and the results are merged. -/
def onCells {m : Type → Type} [Monad m] (fill : Arr E → E) (f : Operand m (Val E) E) (x : Val E) (k : Nat) : m (Out E) :=
  let z := x.sh.take k
  if prod z = 0 then pure (emptyResult z f.safe (fillCell fill x k))
  else do
    let rs ← (List.range (prod z)).mapM fun i => f.run (argCell x k z i)
    pure (merge z rs)

/-- The operand is called on every pair of cells, in order, and the results are merged. -/
def onPairs {m : Type → Type} [Monad m] (fill : Arr E → E) (f : Operand m (Val E × Val E) E) (w x : Val E) (wk xk : Nat) : m (Out E) :=
  let z := longer (w.sh.take wk) (x.sh.take xk)
  if ¬ Agree (w.sh.take wk) (x.sh.take xk) then pure .frames
  else if prod z = 0 then pure (emptyResult z f.safe ((fillCell fill w wk).bind fun a => (fillCell fill x xk).map fun b => (a, b)))
  else do
    let rs ← (List.range (prod z)).mapM fun i => f.run (argCell w wk z i, argCell x xk z i)
    pure (merge z rs)

/-- An array that exists, and that has fewer than 2⋆32 cells at every rank, which is only a condition for empty arrays. -/
def Sized (v : Val E) : Prop :=
  v.els.length = prod v.sh ∧ v.els.length < 2^32 ∧ ∀ k, prod (v.sh.take k) < 2^32

example : cellAt (⟨[2, 3], [1, 2, 3, 4, 5, 6]⟩ : Arr Nat) 1 1 = ⟨[3], [4, 5, 6]⟩ := rfl
example : asked .left (.list [some (.int 1), some (.int 2), some (.int 3)]) = some (.int 2) := rfl
example : cellRank 5 (.int (-2)) = 3 ∧ cellRank 5 (.int (-9)) = 0 ∧ cellRank 5 (.int 9) = 5 ∧ cellRank 5 (.inf true) = 5 := by decide

end Verif.Cells
