/-!
# What a finite map and the search functions are

Independent of the hash table.
-/
namespace Verif.HTab
variable {K V : Type} [DecidableEq K]

/-- Requests to a map. -/
inductive Op (K V : Type) where
  | ins (k : K) (v : V)      -- insert; answers whether the key was there
  | swap (k : K) (v d : V)   -- insert; answers the previous value, `d` if there was none
  | has (k : K)
  | get (k : K) (d : V)      -- the value, `d` if there is none

/-- Answers of a map. -/
inductive Ans (V : Type) where
  | bool (b : Bool)
  | val (v : V)
  deriving DecidableEq

/-- The last value inserted for `k` in a history (newest first). -/
def lastIns (k : K) : List (Op K V) → Option V
  | [] => none
  | .ins j v :: h => if j = k then some v else lastIns k h
  | .swap j v _ :: h => if j = k then some v else lastIns k h
  | _ :: h => lastIns k h

/-- The right answer to a request after the history `h` (newest first). -/
def answer (h : List (Op K V)) : Op K V → Ans V
  | .ins k _ => .bool (lastIns k h).isSome
  | .swap k _ d => .val ((lastIns k h).getD d)
  | .has k => .bool (lastIns k h).isSome
  | .get k d => .val ((lastIns k h).getD d)

/-- The right answers to a list of requests after the history `h`. -/
def answers (h : List (Op K V)) : List (Op K V) → List (Ans V)
  | [] => []
  | o :: os => answer h o :: answers (o :: h) os

/-- Index of the occurrence number `c` (from 0) of `k` in the list; the length of the list if there are not as many. -/
def nthIdx (k : K) : Nat → List K → Nat
  | _, [] => 0
  | c, a :: w => if a = k then (if c = 0 then 0 else nthIdx k (c-1) w + 1) else nthIdx k c w + 1

/-- `w⊒x`: each element of `x` is matched with the first occurrence in `w` not used up by the equal elements before it. -/
def progressive (w x : List K) : List Nat := x.mapIdx fun i k => nthIdx k ((x.take i).count k) w

/-- `∊x` -/
def marks (x : List K) : List Bool := x.mapIdx fun i k => decide (k ∉ x.take i)

/-- `⊒x` -/
def occs (x : List K) : List Nat := x.mapIdx fun i k => (x.take i).count k

/-- `⍷x`: the elements that do not appear earlier -/
def firsts : List K → List K
  | [] => []
  | a :: x => a :: (firsts x).filter (· ≠ a)

/-- `⊐x` -/
def classes (x : List K) : List Nat := x.map fun k => (firsts x).idxOf k

end Verif.HTab
