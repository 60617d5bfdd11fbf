import Verif.Bits.Basic
/-!
# Indices and Replicate: specification
-/
namespace Verif.Slash

/-- The positions of the ones of a boolean list, in increasing order. -/
def positions (bs : List Bool) : List Nat := (List.range bs.length).filter fun i => bs.getD i false

/-- The elements at the positions of the ones. -/
def keep {α} : List Bool → List α → List α
  | true :: bs, x :: xs => x :: keep bs xs
  | false :: bs, _ :: xs => keep bs xs
  | _, _ => []

end Verif.Slash
