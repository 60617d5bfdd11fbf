/-!
# Group: what is expected of it
-/
namespace Verif.Group

/-- How many of the first `i` indices are `k`: the position, in its bucket, of element `i` if its index is `k`. -/
def before (w : Nat → Int) (k : Int) : Nat → Nat
  | 0 => 0
  | i + 1 => before w k i + if w i = k then 1 else 0

/-- `r` is large enough to be the number of buckets for indices `w` of `n` elements, with the extra length `extra`. -/
def Enough (w : Nat → Int) (n : Nat) (extra : Option Int) (r : Nat) : Prop := (∀ i, i < n → w i < r) ∧ ∀ e, extra = some e → e ≤ r

/-- `⊔` of `n` cells with `csz` elements each, `x c` being the element at position `c`: `size k` is the number of cells of bucket `k`, and `get k c` its element at position `c`. -/
structure Grouped {α} (w : Nat → Int) (n : Nat) (extra : Option Int) (csz : Nat) (x : Nat → Option α) (r : Nat) (size : Nat → Nat) (get : Nat → Nat → Option α) : Prop where
  /-- The number of buckets is the least one possible. -/
  enough : Enough w n extra r
  least : ∀ r', Enough w n extra r' → r ≤ r'
  /-- Each bucket has as many cells as its index occurs. -/
  size : ∀ k, k < r → size k = before w k n
  /-- Each cell is in its bucket, after the earlier ones with this index. -/
  get : ∀ i k, i < n → w i = (k : Nat) → ∀ c, c < csz → get k (before w k i * csz + c) = x (i * csz + c)

end Verif.Group
