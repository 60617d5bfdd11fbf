/-!
# Specification: what reference counts must say while a program runs

Objects are named by numbers.  An object knows which objects it refers to; a
heap says which objects exist; the roots are the references held from outside
the heap (the running bodies, the stack, the caller).  A heap is accurate for
some roots when every count is the number of references that exist, nothing
that is referred to is gone, and nothing stays without a reference to it.
Nothing here mentions how or in which order the program frees objects.
-/
namespace Verif.Scope

/-- What an object is, as far as references go: a scope, with the scopes and
bodies it refers to and its variables (`none` is a variable that holds no heap
object), a block bound to the scope it was made in, or anything else. -/
inductive Kind where
  | scope (outer : List Nat) (vars : List (Option Nat))
  | block (sc body : Nat)
  | other (refs : List Nat)
deriving DecidableEq, Repr

/-- The references an object holds, one entry for each reference. -/
def Kind.refs : Kind → List Nat
  | .scope outer vars => outer ++ vars.filterMap id
  | .block sc body => [sc, body]
  | .other refs => refs

structure Obj where
  refc : Nat
  kind : Kind
deriving DecidableEq, Repr

/-- `get i` is the object named `i`, if there is one; no name from `bound` on
has been used. -/
structure Heap where
  bound : Nat
  get : Nat → Option Obj

/-- `f 0 + … + f (n-1)`. -/
def total : Nat → (Nat → Nat) → Nat
  | 0, _ => 0
  | n + 1, f => total n f + f n

/-- How many references to `i` object `j` holds. -/
def holds (h : Heap) (j i : Nat) : Nat :=
  match h.get j with
  | some o => o.kind.refs.count i
  | none => 0

/-- How many references to `i` there are. -/
def refsTo (h : Heap) (roots : List Nat) (i : Nat) : Nat :=
  roots.count i + total h.bound (fun j => holds h j i)

structure Accurate (h : Heap) (roots : List Nat) : Prop where
  /-- Only used names name objects. -/
  small : ∀ i, h.bound ≤ i → h.get i = none
  /-- Each count is right, and each object has a reference to it. -/
  count : ∀ i o, h.get i = some o → o.refc = refsTo h roots i ∧ 0 < o.refc
  /-- Nothing refers to an object that is gone. -/
  closed : ∀ i, h.get i = none → refsTo h roots i = 0

/-- Reachable by following references from the roots. -/
inductive Reach (h : Heap) (roots : List Nat) : Nat → Prop where
  | root {i : Nat} : i ∈ roots → Reach h roots i
  | step {i j : Nat} {o : Obj} :
      Reach h roots i → h.get i = some o → j ∈ o.kind.refs → Reach h roots j

/-- Each object of `h'` was in `h`, with the same references. -/
def Part (h' h : Heap) : Prop :=
  ∀ i o', h'.get i = some o' → ∃ o, h.get i = some o ∧ o.kind = o'.kind

/-- `c` is a block made in scope `sc` with no reference to it but one. -/
def OwnBlock (h : Heap) (sc c : Nat) : Prop :=
  ∃ o, h.get c = some o ∧ o.refc = 1 ∧ ∃ body, o.kind = .block sc body

end Verif.Scope
