import Verif.Group.Wrap
/-!
# C29: Group

`group K wBit w xn cell x d` is `w⊔x` for a list `w` of integers, of boolean type if `wBit`, and `x` of shape `xn∾cell`. `elems` are the kinds of arrays of numbers, characters and objects, `bools` that of booleans. `Fits` bounds the size of `x`: fewer than 2⋆31 cells, 2⋆32 elements and 4 GiB.
-/
namespace Verif.Group
open Verif.Bits Verif.Fold Verif.Slash Verif.Rep Verif.Select Verif.Under Verif.Rotate

/-- What an index list may contain. -/
def Valid (wBit : Bool) (w : List Int) : Prop := if wBit then ∀ v ∈ w, v = 0 ∨ v = 1 else ∀ v ∈ w, -1 ≤ v

/-- Cells of numbers, characters or objects are in the bucket of their index, in order. -/
theorem group_cells {α} (log : Nat) (hlog : log = 3 ∨ log = 4 ∨ log = 5 ∨ log = 6) (notB wBit : Bool) (w : List Int) (xn : Nat) (cell : List Nat) (xs : List α) (d d' : Nat → α)
    (hx : xs.length = xn * prod cell) (hf : Fits (elems log notB d') xn cell) (hlen : w.length = xn ∨ w.length = xn + 1) (hw : Valid wBit w) :
    ∃ rs, group (elems log notB d') wBit w xn cell xs d = some (.ok rs) ∧
      Grouped (fun i => w.getD i 0) xn w[xn]? (prod cell) (fun c => xs[c]?) rs.length (sizeOf xn rs) (getOf (elems log notB d').toKind xs rs) := by
  have hl : IsLog (elems log notB d').log := Or.inr hlog
  cases wBit
  · exact group_ints (elems_lawful log notB d') hl (fun h => by have h : log = 0 := h; omega) w xn cell xs d hx hf hlen hw
  · exact group_bools (elems_lawful log notB d') hl w xn cell xs d hx hf hlen hw

example : ∃ rs, group (elems 6 true fun _ => 99) false [2, -1, 0, 2, 4] 4 [3] (List.range 12) (fun _ => 99) = some (.ok rs) ∧
    Grouped (fun i => [2, -1, 0, 2, 4].getD i 0) 4 (some 4) 3 (fun c => (List.range 12)[c]?) rs.length (sizeOf 4 rs) (getOf (elems 6 true fun _ => 99).toKind (List.range 12) rs) :=
  group_cells 6 (by decide) true false [2, -1, 0, 2, 4] 4 [3] (List.range 12) _ _ (by simp [prod]) ⟨by decide, by decide, by decide⟩ (Or.inr rfl) (by unfold Valid; decide)

/-- Cells of booleans too. -/
theorem group_bit_cells (junk : Nat → Word) (wBit : Bool) (w : List Int) (xn : Nat) (cell : List Nat) (x : List Word) (d : Nat → Bool)
    (hx : x.length = (xn * prod cell + 63) / 64) (hf : Fits (bools junk) xn cell) (hlen : w.length = xn ∨ w.length = xn + 1) (hw : Valid wBit w) :
    ∃ rs, group (bools junk) wBit w xn cell x d = some (.ok rs) ∧
      Grouped (fun i => w.getD i 0) xn w[xn]? (prod cell) (getBit x) rs.length (sizeOf xn rs) (getOf (bools junk).toKind x rs) := by
  cases wBit
  · exact group_ints (bools_lawful junk) (Or.inl rfl) (fun _ => rfl) w xn cell x d hx hf hlen hw
  · exact group_bools (bools_lawful junk) (Or.inl rfl) w xn cell x d hx hf hlen hw

example : ∃ rs, group (bools fun _ => 5#64) true [1, 0, 1] 3 [30] [77#64, 12#64] (fun _ => true) = some (.ok rs) ∧
    Grouped (fun i => [1, 0, 1].getD i 0) 3 none 30 (getBit [77#64, 12#64]) rs.length (sizeOf 3 rs) (getOf (bools fun _ => 5#64).toKind [77#64, 12#64] rs) :=
  group_bit_cells _ true [1, 0, 1] 3 [30] [77#64, 12#64] _ rfl ⟨by decide, by decide, by decide⟩ (Or.inl rfl) (by unfold Valid; decide)

/-- For lists: bucket `k` has exactly the elements whose index is `k`, in their order. -/
theorem group_list {α} (log : Nat) (hlog : log = 3 ∨ log = 4 ∨ log = 5 ∨ log = 6) (notB wBit : Bool) (w : List Int) (xs : List α) (d d' : Nat → α)
    (hf : Fits (elems log notB d') xs.length []) (hlen : w.length = xs.length ∨ w.length = xs.length + 1) (hw : Valid wBit w) :
    ∃ rs, group (elems log notB d') wBit w xs.length [] xs d = some (.ok rs) ∧ Enough (fun i => w.getD i 0) xs.length w[xs.length]? rs.length ∧
      ∀ k (hk : k < rs.length), contents (elems log notB d').toKind xs xs.length 1 rs[k] = ((List.range xs.length).filter fun i => decide (w.getD i 0 = k)).map fun i => xs[i]? := by
  obtain ⟨rs, e, h⟩ := group_cells log hlog notB wBit w xs.length [] xs d d' (by simp [prod]) hf hlen hw
  exact ⟨rs, e, h.enough, fun k hk => contents_eq h hk⟩

example : ∃ rs, group (elems 3 true fun _ => '?') false [2, -1, 0, 2] 4 [] ['a', 'b', 'c', 'd'] (fun _ => '?') = some (.ok rs) ∧ Enough (fun i => [2, -1, 0, 2].getD i 0) 4 none rs.length ∧
    ∀ k (hk : k < rs.length), contents (elems 3 true fun _ => '?').toKind ['a', 'b', 'c', 'd'] 4 1 rs[k] = ((List.range 4).filter fun i => decide ([2, -1, 0, 2].getD i 0 = (k : Int))).map fun i => ['a', 'b', 'c', 'd'][i]? :=
  group_list 3 (by decide) true false [2, -1, 0, 2] ['a', 'b', 'c', 'd'] _ _ ⟨by decide, by decide, by decide⟩ (Or.inl rfl) (by unfold Valid; decide)

/-- An index below ¯1, also as the extra length, is an error. -/
theorem group_rejects_negative {M α} (K : GKind M α) (w : List Int) (xn : Nat) (cell : List Nat) (x : M) (d : Nat → α) (hlen : w.length = xn ∨ w.length = xn + 1) (v : Int) (hv : v ∈ w) (hneg : v < -1) :
    group K false w xn cell x d = some .err := by
  unfold group
  dsimp only
  rw [if_neg (by omega), if_neg (by decide), take_eq_map w xn (by omega)]
  have hs := stats_spec (fun i => w.getD i 0) xn
  generalize ((List.range xn).map fun i => w.getD i 0).foldl Stats.step {} = s at hs ⊢
  refine if_pos ?_
  rw [Bool.or_eq_true, decide_eq_true_iff]
  obtain ⟨i, hi, rfl⟩ := List.getElem_of_mem hv
  have hgd : w.getD i 0 = w[i] := by rw [List.getD_eq_getElem?_getD, List.getElem?_eq_getElem hi]; rfl
  by_cases hin : i < xn
  · exact Or.inl (hs.bad.2 ⟨i, hin, by rw [hgd]; exact hneg⟩)
  · rw [if_pos (by omega), ← show i = xn by omega, hgd]
    exact Or.inr hneg

example : group (elems 6 true fun _ => 99) false [0, -2, 1] 3 [] [4, 5, 6] (fun _ => 99) = some .err := group_rejects_negative _ [0, -2, 1] 3 [] [4, 5, 6] _ (Or.inl rfl) (-2) (by decide) (by decide)

/-- Other lengths of the indices are errors. -/
theorem group_rejects_length {M α} (K : GKind M α) (wBit : Bool) (w : List Int) (xn : Nat) (cell : List Nat) (x : M) (d : Nat → α) (hlen : w.length < xn ∨ xn + 1 < w.length) :
    group K wBit w xn cell x d = some .err := by
  unfold group
  exact if_pos hlen

example : group (elems 6 true fun _ => 99) false [0, 1] 3 [] [4, 5, 6] (fun _ => 99) = some .err := group_rejects_length _ _ [0, 1] 3 [] [4, 5, 6] _ (by decide)

/-- Without the bound of 4 GiB it isn't so: for a bucket of 2⋆25 cells of 16 doubles the size computed in 32 bits wraps around to 0, and the cells are written outside of the memory. -/
theorem group_writes_outside {α} (x : List α) (d : Nat → α) : group (elems 6 true d) false (List.replicate (2^25) 0 ++ [1]) (2^25 + 1) [16] x d = none :=
  group_large (2^25) (Nat.le_refl _) (by decide) x d

end Verif.Group
