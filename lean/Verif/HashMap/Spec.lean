/-!
# What an insertion-ordered map is

The contents are a list of keys with values, oldest first, without repeated keys.
-/
namespace Verif.HashMap
variable {K V : Type} [DecidableEq K]

/-- Calls of a map. -/
inductive Op (K V : Type) where
  | get (k : K)             -- Get k: error if absent
  | getD (d : V) (k : K)    -- d Get k
  | has (k : K)
  | set (k : K) (v : V)     -- k Set v
  | delete (k : K)          -- error if absent
  | count
  | keys
  | values

/-- What a call gives. Lists are given as the program has them, with a marker (`none`) for deleted elements. -/
inductive Out (K V : Type) where
  | done
  | val (v : V)
  | bool (b : Bool)
  | num (n : Nat)
  | keyList (l : List (Option K))
  | valList (l : List (Option V))
  | notFound      -- error: key not found
  | duplicate     -- error when making a map: duplicate keys
  | tooBig        -- error: hash size maximum exceeded
  | full          -- a list of 2^32-1 elements would grow
  deriving DecidableEq

/-- The value of a key. -/
def valueOf (m : List (K × V)) (k : K) : Option V := (m.find? fun e => decide (e.1 = k)).map (·.2)

/-- The right answer to a call, and the contents after it. -/
def answer (m : List (K × V)) : Op K V → List (K × V) × Out K V
  | .get k => (m, match valueOf m k with | some v => .val v | none => .notFound)
  | .getD d k => (m, .val ((valueOf m k).getD d))
  | .has k => (m, .bool (valueOf m k).isSome)
  | .set k v =>
    (if (valueOf m k).isSome then m.map fun e => if e.1 = k then (k, v) else e   -- keeps its place
     else m ++ [(k, v)], .done)
  | .delete k => if (valueOf m k).isSome then (m.filter fun e => decide (e.1 ≠ k), .done) else (m, .notFound)
  | .count => (m, .num m.length)
  | .keys => (m, .keyList (m.map fun e => some e.1))
  | .values => (m, .valList (m.map fun e => some e.2))

/-- The right answers to a history of calls. -/
def answers (m : List (K × V)) : List (Op K V) → List (Out K V)
  | [] => []
  | o :: os => (answer m o).2 :: answers (answer m o).1 os

/-- A key given when the map was made or later. -/
def Used (keys : List K) (ops : List (Op K V)) (k : K) : Prop := k ∈ keys ∨ ∃ v, Op.set k v ∈ ops

/-- So many different keys have a high hash that the largest table (of 2^32+32 slots, each key at the slot given by the upper
half of its 64-bit hash or later) has no place for them and an unused slot at the end. It takes at least 33 keys whose
hashes are almost the highest. -/
def Crowded (hash : K → Nat) (P : K → Prop) : Prop :=
  ∃ (t : Nat) (l : List K), t < 2^32 ∧ l.length = 2^32 + 32 - t ∧ l.Nodup ∧ ∀ k ∈ l, P k ∧ t ≤ hash k / 2^32

end Verif.HashMap
