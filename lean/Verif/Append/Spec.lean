import Verif.Append.Model
/-!
# Joining and appending: specification

Variables that each contain a list of elements, which no other variable can change.
-/
namespace Verif.Append
open Verif.Squeeze

/-- What each operation does to the lists. -/
def specStep (xs : List (List Val)) : Op → List (List Val)
  | .new fill d _ => if fill = true ∧ d.ty ≠ .B then xs else xs ++ [d.elems]
  | .share i => xs ++ (xs[i]?).toList
  | .drop i => xs.eraseIdx i
  | .slice _ i off n => match xs[i]? with
    | some x => if off + n ≤ x.length then xs ++ [(x.drop off).take n] else xs
    | none => xs
  | .add i v _ => xs.modify i (· ++ [v])
  | .join i j _ => match xs[j]? with
    | some y => xs.modify i (· ++ y)
    | none => xs
  | .squeeze _ _ => xs
  | .mark _ _ _ => xs

def specRun (xs : List (List Val)) : List Op → List (List Val)
  | [] => xs
  | o :: os => specRun (specStep xs o) os

/-- All lists are shorter than `n` all the time. -/
def Short (n : Nat) (xs : List (List Val)) : List Op → Prop
  | [] => ∀ x ∈ xs, x.length < n
  | o :: os => (∀ x ∈ xs, x.length < n) ∧ Short n (specStep xs o) os

/-- No appending to an empty list. -/
def Nonempty (xs : List (List Val)) : List Op → Prop
  | [] => True
  | o :: os =>
    (match o with
      | .add i _ _ => xs[i]? ≠ some []
      | .join i _ _ => xs[i]? ≠ some []
      | _ => True) ∧ Nonempty (specStep xs o) os

/-- The variables contain the lists. -/
def Shows (s : State) (xs : List (List Val)) : Prop :=
  s.vars.length = xs.length ∧
    ∀ (i id : Nat) (x : List Val), s.vars[i]? = some id → xs[i]? = some x → ∃ d, view s.heap id = some d ∧ Sames d.elems x

/-- The array of a variable, with its flags. -/
def arr (h : List Obj) (id : Nat) : Option Arr :=
  match h[id]?, view h id with
  | some o, some d => some ⟨d, o.squoze, o.asc, o.dsc⟩
  | _, _ => none

end Verif.Append
