import Verif.Rotate.Spec
/-!
# Prefixes and suffixes: specification
-/
namespace Verif.Affixes
open Verif.Rotate

/-- The array of the shape `len :: csh` with the elements `p` has the major cells of `x` from `start` on. -/
structure IsPart {α} (cam : Nat) (csh : List Nat) (x : List α) (start len : Nat) (p : List Nat × List α) : Prop where
  shape : p.1 = len :: csh
  count : p.2.length = prod p.1
  each : ∀ j c, InShape (len :: csh) (j :: c) → p.2[ravel (len :: csh) (j :: c)]? = x[ravel (cam :: csh) ((start + j) :: c)]?

example : IsPart 3 [2] [1, 2, 3, 4, 5, 6] 1 1 ([1, 2], [3, 4]) := by
  refine ⟨rfl, rfl, ?_⟩
  intro j c h
  match c, h with
  | [k], .cons h1 (.cons h2 .nil) =>
    have : j = 0 := by omega
    have : k = 0 ∨ k = 1 := by omega
    subst j
    rcases this with rfl | rfl <;> rfl

end Verif.Affixes
