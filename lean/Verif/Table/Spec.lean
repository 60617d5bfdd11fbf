import Verif.Rotate.Spec
/-!
# Table and Each with one argument: specification

`A` is what atoms are, and `m` any monad of effects: what the operand does besides giving a result. `fail` is an error in it.
-/
namespace Verif.Table
open Verif.Rotate (prod)

/-- A value: an atom, or an array with its shape and its elements in the order of their indices. -/
inductive T (A : Type)
  | atom (a : A)
  | arr (sh : List Nat) (xs : List (T A))

variable {A : Type} {m : Type → Type}

/-- An atom has no axes. -/
def T.sh : T A → List Nat
  | .atom _ => []
  | .arr sh _ => sh

/-- An atom is its only element. -/
def T.els : T A → List (T A)
  | .atom a => [.atom a]
  | .arr _ xs => xs

def T.isAtom : T A → Bool
  | .atom _ => true
  | .arr _ _ => false

/-- As many elements as the shape says. -/
def Full (x : T A) : Prop := x.els.length = prod x.sh

/-- Arithmetic and comparisons: two lists of the same length are taken element by element, and an atom goes with every element of an array. `none` is an error. -/
structure Pervasive (p : T A → T A → Option (T A)) : Prop where
  lists : ∀ ws xs, ws.length = xs.length → p (.arr [xs.length] ws) (.arr [xs.length] xs) = ((ws.zip xs).mapM fun q => p q.1 q.2).map (.arr [xs.length])
  left : ∀ a sh xs, p (.atom a) (.arr sh xs) = (xs.mapM (p (.atom a))).map (.arr sh)

/-- An operand: something that can't be called, a modifier, `⊣`, `⊢`, a pervasive function or its `˜`, or another function. -/
inductive Op (m : Type → Type) (A : Type)
  | const (v : T A)
  | md
  | ltack
  | rtack
  | perv (p : T A → T A → Option (T A))
  | fn (f : T A → T A → m (T A))

/-- A call on two values. -/
def Op.run [Monad m] (fail : ∀ α, m α) : Op m A → T A → T A → m (T A)
  | .const v, _, _ => pure v
  | .md, _, _ => fail _
  | .ltack, a, _ => pure a
  | .rtack, _, b => pure b
  | .perv p, a, b => match p a b with | some r => pure r | none => fail _
  | .fn f, a, b => f a b

/-- All pairs, those with the first element of `𝕨` first. -/
def pairs (w x : T A) : List (T A × T A) := w.els.flatMap fun a => x.els.map fun b => (a, b)

/-- What a call gives, other than errors of the operand: `size` and `rank` are the errors of a result that is too large, and `undef` is undefined behaviour. -/
inductive Res (A : Type)
  | ok (r : T A)
  | size
  | rank
  | undef

/-- `𝕨 𝔽⌜ 𝕩`: the shapes one after the other, and a call for each pair. -/
def table [Monad m] (fail : ∀ α, m α) (op : Op m A) (w x : T A) : m (Res A) :=
  if prod w.sh * prod x.sh ≥ 2^32 then pure .size
  else if w.sh.length + x.sh.length > 255 then pure .rank
  else do
    let rs ← (pairs w x).mapM fun q => op.run fail q.1 q.2
    pure (.ok (.arr (w.sh ++ x.sh) rs))

/-- An operand that is called with one argument. `⊣` and `⊢` are `same`. -/
inductive Op1 (m : Type → Type) (A : Type)
  | const (v : T A)
  | md
  | same
  | fn (f : T A → m (T A))

def Op1.run [Monad m] (fail : ∀ α, m α) : Op1 m A → T A → m (T A)
  | .const v, _ => pure v
  | .md, _ => fail _
  | .same, a => pure a
  | .fn f, a => f a

/-- `𝔽¨𝕩`: the same shape, and a call for each element. -/
def each [Monad m] (fail : ∀ α, m α) (op : Op1 m A) (x : T A) : m (T A) := do
  let rs ← x.els.mapM (op.run fail)
  pure (.arr x.sh rs)

/-- An object: its reference count, and how many places refer to it. -/
structure Obj where
  count : Int
  held : Int

/-- It's freed when nothing refers to it anymore, not earlier. -/
def Obj.Right (o : Obj) : Prop := o.count = o.held

end Verif.Table
