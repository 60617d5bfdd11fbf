import Verif.Rotate.Spec
/-!
# Windows: specification

`𝕩` has the shape `a ++ b`, and `ws` has one length for each axis of `a`.
-/
namespace Verif.Windows
open Verif.Rotate

/-- Each window fits: its length is at most that of the axis plus one. -/
inductive Fits : List Nat → List Nat → Prop
  | nil : Fits [] []
  | cons {m l : Nat} {ws a : List Nat} : m ≤ l + 1 → Fits ws a → Fits (m :: ws) (l :: a)

/-- The number of places a window fits at, along each axis. -/
def places (ws a : List Nat) : List Nat := List.zipWith (fun m l => l + 1 - m) ws a

/-- Place by place, then by the position in the window, then in the cell: the element of `x` at the sum of place and position. -/
structure IsWindows {α} (ws a b : List Nat) (x : List α) (rsh : List Nat) (r : List α) : Prop where
  shape : rsh = places ws a ++ ws ++ b
  count : r.length = prod rsh
  each : ∀ p q c, InShape (places ws a) p → InShape ws q → InShape b c →
    r[ravel rsh (p ++ q ++ c)]? = x[ravel (a ++ b) (List.zipWith (· + ·) p q ++ c)]?

example : IsWindows [2] [3] [] [5, 6, 7] [2, 2] [5, 6, 6, 7] := by
  refine ⟨rfl, rfl, fun p q c hp hq hc => ?_⟩
  match p, q, c, hp, hq, hc with
  | [i], [j], [], .cons h1 .nil, .cons h2 .nil, .nil =>
    have h1 : i < 2 := h1
    have : i = 0 ∨ i = 1 := by omega
    have : j = 0 ∨ j = 1 := by omega
    rcases ‹i = 0 ∨ i = 1› with rfl | rfl <;> rcases ‹j = 0 ∨ j = 1› with rfl | rfl <;> rfl

end Verif.Windows
