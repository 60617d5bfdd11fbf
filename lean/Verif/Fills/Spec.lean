/-!
# Specification: prototypes

A value, without how it is stored.  The prototype of a value has the same
structure, `0` for each number and a space for each character; a value that
contains a function has none.
-/
namespace Verif.Fills

inductive P where
  | num (n : Int)
  | chr (c : Nat)
  | fn (i : Nat)
  | arr (sh : List Nat) (els : List P)

mutual
def proto : P → Option P
  | .num _ => some (.num 0)
  | .chr _ => some (.chr 32)
  | .fn _ => none
  | .arr sh els => (protoL els).map (.arr sh)
def protoL : List P → Option (List P)
  | [] => some []
  | a :: as => (proto a).bind fun b => (protoL as).map fun bs => b :: bs
end

/-- How many elements an array of this shape has. -/
def prod (sh : List Nat) : Nat := sh.foldr (· * ·) 1

end Verif.Fills
