import Verif.Cells.Spec
/-!
# Pick and Choose: specification

`E` is any type of elements. Indices are nested arrays of numbers; picking with one replaces each index list by the element it's the index of.
-/
namespace Verif.Pick
open Verif.Cells (Arr Val)
open Verif.Rotate (prod InShape ravel)
variable {E : Type}

/-- `𝕨`. A number is an integer of 64 bits, or not (`none`). Arrays are stored as integers, as floats, or in another way (boxed, booleans, characters), in which case elements are read one by one. `other` is what is neither a number nor an array. -/
inductive Ix
  | num (n : Option Int)
  | other
  | ints (sh : List Nat) (ns : List Int)
  | floats (sh : List Nat) (ns : List (Option Int))
  | boxed (sh : List Nat) (gs : List Ix)

/-- What is picked: an element or an array of what is picked. -/
inductive R (E : Type)
  | val (e : E)
  | arr (sh : List Nat) (rs : List (R E))

/-- It's an index: an integer or a list of integers, these ones. -/
inductive IsIndex : Ix → List Int → Prop
  | num (i : Int) : IsIndex (.num (some i)) [i]
  | ints (n : Nat) (ns : List Int) : IsIndex (.ints [n] ns) ns
  | floats (n : Nat) (ns : List Int) : IsIndex (.floats [n] (ns.map some)) ns
  | boxed (n : Nat) (ns : List Int) : IsIndex (.boxed [n] (ns.map fun i => .num (some i))) ns

/-- `ks` is the position that the numbers `is` stand for: from the start of each axis, or from the end if negative. -/
inductive Position : List Nat → List Int → List Nat → Prop
  | nil : Position [] [] []
  | cons {n k : Nat} {i : Int} {sh : List Nat} {is : List Int} {ks : List Nat} : k < n → ((k : Int) = i ∨ (k : Int) = i + n) → Position sh is ks → Position (n :: sh) (i :: is) (k :: ks)

/-- An array, and not a number, character, … -/
def Ix.isArr : Ix → Bool
  | .num _ => false
  | .other => false
  | _ => true

/-- `𝕨⊑𝕩`: an index gives the element at that position. An array of arrays gives the array of what each of them picks. -/
inductive Picks (x : Arr E) : Ix → R E → Prop
  | one {w : Ix} {is : List Int} {ks : List Nat} {e : E} : IsIndex w is → Position x.sh is ks → x.els[ravel x.sh ks]? = some e → Picks x w (.val e)
  | each {sh : List Nat} {gs : List Ix} {rs : List (R E)} : gs ≠ [] → gs.length = rs.length → (∀ (i : Nat) (g : Ix), gs[i]? = some g → g.isArr = true) →
      (∀ (i : Nat) (g : Ix) (r : R E), gs[i]? = some g → rs[i]? = some r → Picks x g r) → Picks x (.boxed sh gs) (.arr sh rs)

mutual
/-- What can be: 64-bit integers and arrays with as many elements as the shape says. -/
def Ix.Ok : Ix → Prop
  | .num n => ∀ i, n = some i → -2^63 ≤ i ∧ i < 2^63
  | .other => True
  | .ints sh ns => ns.length = prod sh ∧ ∀ i ∈ ns, -2^63 ≤ i ∧ i < 2^63
  | .floats sh ns => ns.length = prod sh ∧ ∀ i, some i ∈ ns → -2^63 ≤ i ∧ i < 2^63
  | .boxed sh gs => gs.length = prod sh ∧ OkL gs
def OkL : List Ix → Prop
  | [] => True
  | g :: gs => g.Ok ∧ OkL gs
end

mutual
/-- Empty arrays in it are lists. -/
def Ix.Plain : Ix → Prop
  | .num _ => True
  | .other => True
  | .ints sh ns => ns = [] → sh.length = 1
  | .floats sh ns => ns = [] → sh.length = 1
  | .boxed sh gs => (gs = [] → sh.length = 1) ∧ PlainL gs
def PlainL : List Ix → Prop
  | [] => True
  | g :: gs => g.Plain ∧ PlainL gs
end

/-- A value as an array: an atom is its only element. -/
def asArr : Val E → Arr E
  | .atom e => ⟨[], [e]⟩
  | .arr a => a

/-- What can be an argument: as many elements as the shape says, fewer than `2⋆32`, and no axis is longer. -/
structure ArrOk (x : Arr E) : Prop where
  full : x.els.length = prod x.sh
  small : prod x.sh < 2^32
  axes : ∀ n ∈ x.sh, n < 2^32

/-- The result of a call. `undef` is undefined behaviour. -/
inductive Out (α : Type)
  | ok (a : α)
  | err
  | undef

end Verif.Pick
