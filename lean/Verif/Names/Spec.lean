/-!
# Specification: fields of namespaces by name

A name is a list of code points.  The body of a block that gives a namespace
declares its variables: some have no name (`𝕩`, `𝕤`, ...), others have one and
are exported or not.  The field `s` is the first exported variable with that
name.
-/
namespace Verif.Names

abbrev Name := List Nat

structure Var where
  name : Option Name
  exported : Bool
deriving DecidableEq, Repr

def special : Var := ⟨none, false⟩

/-- Where the field `s` is. -/
def field (vs : List Var) (s : Name) : Option Nat :=
  vs.findIdx? fun v => v.exported && v.name == some s

/-- The names of the fields, in order. -/
def keys (vs : List Var) : List Name :=
  vs.filterMap fun v => if v.exported then v.name else none

/-- How a name is written matters not: underscores are dropped and letters are
small.  The capital letters are `A` to `Z` and `À` to `Þ` without `×`. -/
def isCapital (c : Nat) : Bool :=
  (65 ≤ c && c ≤ 90) || (192 ≤ c && c ≤ 222 && c != 215)

def plain (s : Name) : Name :=
  (s.filter (· != 95)).map fun c => if isCapital c then c + 32 else c

/-- What the compiler says about the variables of a body: the names of the
program, for each named variable which of them it has and whether it is
exported, how many variables without a name come first, and how many variables
there are. -/
structure Decl where
  names : List Name
  ids : List Nat
  exported : List Bool
  off : Nat
  varAm : Nat
deriving DecidableEq, Repr

/-- The indices are those of names, and there is space for the variables. -/
structure Decl.Good (d : Decl) : Prop where
  len : d.exported.length = d.ids.length
  idx : ∀ i ∈ d.ids, i < d.names.length
  room : d.off + d.ids.length ≤ d.varAm

def Decl.vars (d : Decl) : List Var :=
  List.replicate d.off special ++
  (d.ids.zip d.exported).map (fun p => ⟨d.names[p.1]?, p.2⟩) ++
  List.replicate (d.varAm - d.off - d.ids.length) special

end Verif.Names
