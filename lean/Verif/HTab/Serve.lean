import Verif.HTab.Model
import Verif.HTab.Spec
/-! # Histories of requests to the hash table -/
namespace Verif.HTab
variable {K V : Type} [DecidableEq K]

/-- One request on the table. -/
def step (hash : K → Nat) (junk : K × V) (t : Map K V) : Op K V → Option (Map K V × Ans V)
  | .ins k v => (ins hash junk t k v).map fun r => (r.1, .bool r.2)
  | .swap k v d => (swap hash junk t k v d).map fun r => (r.1, .val r.2)
  | .has k => (has hash t k).map fun b => (t, .bool b)
  | .get k d => (getD hash t k d).map fun v => (t, .val v)

/-- Requests one after another on the table; the answers. -/
def serve (hash : K → Nat) (junk : K × V) (t : Map K V) : List (Op K V) → Option (List (Ans V))
  | [] => some []
  | o :: os => (step hash junk t o).bind fun r => (serve hash junk r.1 os).map (r.2 :: ·)

/-- All names interned one after another: the numbers, and the name list. -/
def internAll (hash : K → Nat) (junk : K × Nat) (t : Map K Nat) (names : List K) : List K → Option (List Nat × List K)
  | [] => some ([], names)
  | s :: ss => (str2gid hash junk t names s).bind fun r =>
      (internAll hash junk r.2.1 r.2.2 ss).map fun q => (r.1 :: q.1, q.2)

end Verif.HTab
