import Verif.Squeeze.Model
/-!
# Matching values: specification

Values live in a heap.  `Val` (from `Verif.Squeeze.Spec`) is a number, a character, or the name of an object; an
object is an array with its shape, a derived function or modifier made of parts, or something that is only the same
as itself (a primitive, a block, a namespace).
-/
namespace Verif.Match
open Verif.Squeeze (Val El Data Arr EqF)
open Verif.Bits (Word)

/-- The kinds of derived functions, `t_md1D`, `t_md2D`, `t_fork`, `t_atop` (`src/h.h`). -/
inductive Der
  | md1D | md2D | fork | atop
deriving DecidableEq

/-- An object.  `tail` is what the words of an array of bits hold past its last element. -/
inductive Obj
  | arr (sh : List Nat) (a : Arr) (tail : Nat → Word)
  | der (t : Der) (parts : List Val)
  | single

abbrev Heap := Nat → Obj

/-- Numbers that match: equal as doubles or, if `r`, two NaNs. -/
def NumMatch (r : Bool) (f g : BitVec 64) : Prop :=
  EqF f g ∨ (r = true ∧ Compare.nan f = true ∧ Compare.nan g = true)

/-- Two values match: equal numbers, equal characters, arrays with the same shape and matching elements, the same
object, or derived functions of one kind made of matching parts.  Whether a NaN matches a NaN is told by `r`; in the
parts of functions it does. -/
inductive Match (h : Heap) : Bool → Val → Val → Prop
  | num {r f g} : NumMatch r f g → Match h r (.num f) (.num g)
  | chr {r c} : Match h r (.chr c) (.chr c)
  | arr {r i j sh a b s t} : h i = .arr sh a s → h j = .arr sh b t → a.data.elems.length = b.data.elems.length →
      (∀ (k : Nat) u v, a.data.elems[k]? = some u → b.data.elems[k]? = some v → Match h r u v) → Match h r (.other i) (.other j)
  | same {r i} : (∀ sh a s, h i ≠ .arr sh a s) → Match h r (.other i) (.other i)
  | der {r i j d ps qs} : h i = .der d ps → h j = .der d qs → ps.length = qs.length →
      (∀ (k : Nat) u v, ps[k]? = some u → qs[k]? = some v → Match h true u v) → Match h r (.other i) (.other j)

/-- What an object is made of. -/
def Obj.parts : Obj → List Val
  | .arr _ a _ => a.data.elems
  | .der _ ps => ps
  | .single => []

/-- How many parts each kind of derived function has, `core/derv.c` 91-94. -/
def Der.arity : Der → Nat
  | .md1D => 2 | .md2D => 3 | .fork => 3 | .atop => 2

/-- A heap as the interpreter builds it: no object contains itself (`depth` counts the levels), an array has as many
elements as its shape tells and fewer than 2^32, and a derived function has the parts of its kind. -/
structure Good (h : Heap) (depth : Nat → Nat) : Prop where
  deep : ∀ i j, Val.other j ∈ (h i).parts → depth j < depth i
  count : ∀ i sh a s, h i = .arr sh a s → a.data.elems.length = Compare.count sh
  size : ∀ i sh a s, h i = .arr sh a s → a.data.elems.length < 2^32
  arity : ∀ i d ps, h i = .der d ps → ps.length = d.arity

/-- Levels of objects under a value. -/
def vdepth (depth : Nat → Nat) : Val → Nat
  | .other i => depth i + 1
  | _ => 0

/-- The flags of all arrays tell the truth. -/
def Truthful (h : Heap) : Prop := ∀ i sh a s, h i = .arr sh a s → Squeeze.Flags a

/-- A NaN that arithmetic gives: sign and payload as `0.0/0.0`.  Words with other payloads are not numbers but
tagged values (`src/h.h` 183-199), see C01. -/
def PlainNaN (f : BitVec 64) : Prop := Compare.nan f = true → f = 0x7FF8000000000000 ∨ f = 0xFFF8000000000000

/-- All numbers of a heap are doubles or that NaN. -/
def Plain (h : Heap) : Prop := ∀ i f, Val.num f ∈ (h i).parts → PlainNaN f

end Verif.Match
