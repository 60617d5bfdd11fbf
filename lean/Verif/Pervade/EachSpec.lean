import Verif.Pervade.Spec
import Verif.Squeeze.Model
/-!
# Each: specification

Values as they are stored, and which of their elements belong together.
-/
namespace Verif.Pervade
open Verif.Rotate (prod)
open Verif.Squeeze (Val Data)

/-- Values as they are stored: arrays with an element type, and arrays of values. -/
inductive V
  | num (f : BitVec 64)
  | chr (c : BitVec 32)
  | fn (id : Nat)
  | typed (sh : List Nat) (d : Data)
  | boxed (sh : List Nat) (xs : List V)

def V.isArr : V → Bool
  | .typed _ _ => true
  | .boxed _ _ => true
  | _ => false

def V.sh : V → List Nat
  | .typed sh _ => sh
  | .boxed sh _ => sh
  | _ => []

/-- `IGet(x,i)` of a typed array. -/
def ofVal : Val → V
  | .num f => .num f
  | .chr c => .chr c
  | .other i => .fn i

/-- `IGet(x,i)` for all `i`. -/
def V.els : V → List V
  | .typed _ d => d.elems.map ofVal
  | .boxed _ xs => xs
  | _ => []

/-- `Get(x,i)`. -/
def V.get (x : V) (i : Nat) : V := x.els.getD i (.num 0)

/-- The longer shape. -/
def big (s t : List Nat) : List Nat := if s.length > t.length then s else t

/-- One of the shapes begins with the other one. -/
def Agree (s t : List Nat) : Prop := s.take (min s.length t.length) = t.take (min s.length t.length)

instance (s t : List Nat) : Decidable (Agree s t) := by unfold Agree; exact inferInstance

/-- The element of `v` that belongs to element `i` of a result of shape `sh`. -/
def cell (v : V) (sh : List Nat) (i : Nat) : V :=
  if v.isArr then v.get (i / prod (sh.drop v.sh.length)) else v

/-- As many elements as the shape says. -/
def Full (v : V) : Prop := v.isArr = true → v.els.length = prod v.sh

/-- A value of a typed array as a tree. -/
def tv : Val → T
  | .num f => .num f
  | .chr c => .chr c
  | .other i => .fn i

mutual
/-- The tree that a value stands for. -/
def abs : V → T
  | .num f => .num f
  | .chr c => .chr c
  | .fn i => .fn i
  | .typed sh d => .arr sh (d.elems.map tv)
  | .boxed sh xs => .arr sh (abss xs)
def abss : List V → List T
  | [] => []
  | v :: vs => abs v :: abss vs
end

mutual
/-- Arrays have as many elements as their shapes say, and those with an element type fewer than 2⋆32, with character codes
below 2⋆31. -/
def Sound : V → Prop
  | .num _ => True
  | .chr _ => True
  | .fn _ => True
  | .typed sh d => d.ty ≠ .B ∧ d.elems.length = prod sh ∧ prod sh < 2^32 ∧ ∀ c, .chr c ∈ d.elems → c.toNat < 2^31
  | .boxed sh xs => xs.length = prod sh ∧ Sounds xs
def Sounds : List V → Prop
  | [] => True
  | v :: vs => Sound v ∧ Sounds vs
end

end Verif.Pervade
