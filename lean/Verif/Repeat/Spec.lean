/-!
# Repeat: specification

`X` is any type of values, and `m` any monad of effects; `fail` is an error in it.
-/
namespace Verif.Repeat
variable {X : Type} {m : Type → Type}

/-- What `𝔾` gives. A number is an integer of 64 bits, or not (`none`). Arrays are stored as booleans, as numbers, or as values; `other` is what is neither a number nor an array. -/
inductive G
  | num (n : Option Int)
  | other
  | bits (sh : List Nat) (bs : List Bool)
  | nums (sh : List Nat) (ns : List (Option Int))
  | boxed (sh : List Nat) (gs : List G)

/-- A tree of results. -/
inductive R (X : Type)
  | val (x : X)
  | arr (sh : List Nat) (rs : List (R X))

mutual
/-- All the numbers in it, if there are only integers. -/
def G.ints : G → Option (List Int)
  | .num n => n.map fun i => [i]
  | .other => none
  | .bits _ bs => some (bs.map fun b => b.toNat)
  | .nums _ ns => ns.mapM id
  | .boxed _ gs => intsL gs
def intsL : List G → Option (List Int)
  | [] => some []
  | g :: gs => match g.ints, intsL gs with | some a, some b => some (a ++ b) | _, _ => none
end

mutual
/-- Each number is replaced. -/
def G.replace (h : Int → X) : G → R X
  | .num n => .val (h (n.getD 0))
  | .other => .val (h 0)
  | .bits sh bs => .arr sh (bs.map fun b => .val (h b.toNat))
  | .nums sh ns => .arr sh (ns.map fun n => .val (h (n.getD 0)))
  | .boxed sh gs => .arr sh (replaceL h gs)
def replaceL (h : Int → X) : List G → List (R X)
  | [] => []
  | g :: gs => g.replace h :: replaceL h gs
end

/-- `n` calls, each on the result of the one before, and all results. -/
def chain [Monad m] (f : X → m X) : Nat → X → m (List X)
  | 0, _ => pure []
  | n+1, x => do
    let y ← f x
    let l ← chain f n y
    pure (y :: l)

/-- The largest of some numbers, at least 0. -/
def most (l : List Nat) : Nat := l.foldl max 0

/-- Numbers that are allowed: a natural number by itself, or integers between `-2⋆48` and `2⋆48`, excluded. -/
def allowed (g : G) (l : List Int) : Bool :=
  match g with
  | .num (some i) => 0 ≤ i || -2^48 < i
  | _ => l.all fun i => -2^48 < i && i < 2^48

/-- What a number stands for: `𝕩`, a result of calls of the inverse, or of calls of the function. -/
def result (x : X) (neg pos : List X) (i : Int) : X := if i < 0 then neg.getD ((-i).toNat - 1) x else (x :: pos).getD i.toNat x

/-- `𝔽⍟𝔾 𝕩`: `𝔾` is called once. Then the inverse of `𝔽` and `𝔽` are called as often as needed for the least and greatest number, and each number is replaced by the result for it. -/
def repeatSpec [Monad m] (fail : ∀ α, m α) (g : X → m G) (f undo : X → m X) (x : X) : m (R X) := do
  let gv ← g x
  match gv.ints with
  | none => fail _
  | some l =>
    if allowed gv l then do
      let neg ← chain undo (most (l.map fun i => (-i).toNat)) x
      let pos ← chain f (most (l.map Int.toNat)) x
      pure (gv.replace (result x neg pos))
    else fail _

example : G.ints (.boxed [2] [.num (some 2), .nums [2] [some (-1), some 3]]) = some [2, -1, 3] := rfl

end Verif.Repeat
