import Verif.Transpose.Main
/-!
# C28: Transpose

`Has x n` says that `x` is an array of `n` elements, and `elemAt x k` is its element at position `k`. `junk`, `jb` and `d` are the contents of fresh memory.
-/
namespace Verif.Transpose
open Verif.Bits Verif.Fold Verif.Slash Verif.Rep Verif.Select Verif.Under Verif.Rotate

/-- `⍉x` moves the first axis to the end and keeps the element at each index. -/
theorem transpose_index {α} (x : Mem α) (h : Nat) (sh : List Nat) (hsh : sh ≠ []) (hx : Has x (prod (h :: sh))) (junk : Nat → Word) (jb : Nat → Bool) (d : Nat → α) :
    ∃ r, transpC1 x (h :: sh) junk jb d = some (r, sh ++ [h]) ∧ Has r (prod (sh ++ [h])) ∧
      ∀ i is, i < h → InShape sh is → elemAt r (ravel (sh ++ [h]) (is ++ [i])) = elemAt x (ravel (h :: sh) (i :: is)) :=
  transpC1_spec x h sh hsh hx junk jb d

example : ∃ r, transpC1 (.elems (List.range 24)) [2, 3, 4] (fun _ => 0#64) (fun _ => true) (fun _ => 99) = some (r, [3, 4, 2]) ∧ Has r 24 ∧
    ∀ i is, i < 2 → InShape [3, 4] is → elemAt r (ravel [3, 4, 2] (is ++ [i])) = elemAt (.elems (List.range 24)) (ravel [2, 3, 4] (i :: is)) :=
  transpose_index (.elems (List.range 24)) 2 [3, 4] (by simp) (by simp [Has, prod]) _ _ _

/-- Two rows of 33 booleans. -/
example : ∃ r, transpC1 (.bits (α := Nat) [5#64, 2#64]) [2, 33] (fun _ => 7#64) (fun _ => true) (fun _ => 99) = some (r, [33, 2]) ∧ Has r 66 ∧
    ∀ i is, i < 2 → InShape [33] is → elemAt r (ravel [33, 2] (is ++ [i])) = elemAt (.bits [5#64, 2#64]) (ravel [2, 33] (i :: is)) :=
  transpose_index (.bits [5#64, 2#64]) 2 [33] (by simp) rfl _ _ _

/-- Lists are kept. -/
theorem transpose_list {α} (x : Mem α) (sh : List Nat) (hsh : sh.length ≤ 1) (junk : Nat → Word) (jb : Nat → Bool) (d : Nat → α) : transpC1 x sh junk jb d = some (x, sh) :=
  match sh, hsh with
  | [], _ => rfl
  | [_], _ => rfl

example : transpC1 (.elems ['a', 'b']) [2] (fun _ => 0#64) (fun _ => true) (fun _ => '?') = some (.elems ['a', 'b'], [2]) := transpose_list _ _ (by decide) _ _ _

/-- `⍉⁼x` moves the last axis to the front and keeps the element at each index. -/
theorem transpose_inverse_index {α} (x : Mem α) (w : Nat) (sh : List Nat) (hsh : sh ≠ []) (hx : Has x (prod (sh ++ [w]))) (junk : Nat → Word) (jb : Nat → Bool) (d : Nat → α) :
    ∃ r, transpIm x (sh ++ [w]) junk jb d = some (r, w :: sh) ∧ Has r (prod (w :: sh)) ∧
      ∀ i is, i < w → InShape sh is → elemAt r (ravel (w :: sh) (i :: is)) = elemAt x (ravel (sh ++ [w]) (is ++ [i])) :=
  transpIm_spec x w sh hsh hx junk jb d

example : ∃ r, transpIm (.elems (List.range 24)) [2, 3, 4] (fun _ => 0#64) (fun _ => true) (fun _ => 99) = some (r, [4, 2, 3]) ∧ Has r 24 ∧
    ∀ i is, i < 4 → InShape [2, 3] is → elemAt r (ravel [4, 2, 3] (i :: is)) = elemAt (.elems (List.range 24)) (ravel [2, 3, 4] (is ++ [i])) :=
  transpose_inverse_index (.elems (List.range 24)) 4 [2, 3] (by simp) (by simp [Has, prod]) _ _ _

/-- `⍉⁼⍉x` is `x`: the same shape, and the same element at each position. -/
theorem transpose_round_trip {α} (x : Mem α) (sh : List Nat) (hx : Has x (prod sh)) (junk : Nat → Word) (jb : Nat → Bool) (d : Nat → α) :
    ∃ r rsh r2, transpC1 x sh junk jb d = some (r, rsh) ∧ transpIm r rsh junk jb d = some (r2, sh) ∧ Has r2 (prod sh) ∧ ∀ k, k < prod sh → elemAt r2 k = elemAt x k := by
  match sh with
  | [] => exact ⟨x, [], x, rfl, rfl, hx, fun _ _ => rfl⟩
  | [s] => exact ⟨x, [s], x, rfl, rfl, hx, fun _ _ => rfl⟩
  | h :: s1 :: rest =>
    obtain ⟨r, e, h1, h2⟩ := transpose_index x h (s1 :: rest) (by simp) hx junk jb d
    obtain ⟨r2, e2, h3, h4⟩ := transpose_inverse_index r h (s1 :: rest) (by simp) h1 junk jb d
    refine ⟨r, _, r2, e, e2, h3, fun k hk => ?_⟩
    obtain ⟨is, his, ek⟩ := exists_index (h :: s1 :: rest) k hk
    subst ek
    cases his with
    | cons hi his => rw [h4 _ _ hi his, h2 _ _ hi his]

/-- For elements other than booleans this is the same memory. -/
theorem transpose_round_trip_elems {α} (xs : List α) (sh : List Nat) (hx : xs.length = prod sh) (junk : Nat → Word) (jb : Nat → Bool) (d : Nat → α) :
    ∃ r rsh, transpC1 (.elems xs) sh junk jb d = some (r, rsh) ∧ transpIm r rsh junk jb d = some (.elems xs, sh) := by
  obtain ⟨r, rsh, r2, e1, e2, h1, h2⟩ := transpose_round_trip (.elems xs) sh hx junk jb d
  refine ⟨r, rsh, e1, ?_⟩
  -- the kind of array is kept
  have hk : ∀ (x : List α) ia w h r, transposeNoshape (.elems x) ia w h junk jb d = some r → ∃ ys, r = .elems ys := by
    intro x ia w h r hr
    rw [transposeNoshape] at hr
    obtain ⟨ys, _, e⟩ := Option.map_eq_some_iff.1 hr
    exact ⟨ys, e.symm⟩
  have hr : ∃ ys, r = .elems ys := by
    match sh, e1 with
    | [], e1 => cases e1; exact ⟨_, rfl⟩
    | [_], e1 => cases e1; exact ⟨_, rfl⟩
    | h :: s1 :: rest, e1 =>
      rw [transpC1] at e1
      by_cases hc : prod (h :: s1 :: rest) = 0 ∨ h = 1 ∨ h = prod (h :: s1 :: rest)
      · rw [if_pos hc] at e1
        cases e1
        exact ⟨_, rfl⟩
      · rw [if_neg hc] at e1
        obtain ⟨r', e, e3⟩ := Option.map_eq_some_iff.1 e1
        cases e3
        exact hk _ _ _ _ _ e
  obtain ⟨ys, rfl⟩ := hr
  have hr2 : ∃ zs, r2 = .elems zs := by
    unfold transpIm at e2
    by_cases h0 : rsh.length ≤ 1
    · rw [if_pos h0] at e2
      cases e2
      exact ⟨_, rfl⟩
    · rw [if_neg h0] at e2
      dsimp only at e2
      by_cases hc : prod rsh = 0 ∨ rsh.getLastD 0 = 1 ∨ rsh.getLastD 0 = prod rsh
      · rw [if_pos hc] at e2
        cases e2
        exact ⟨_, rfl⟩
      · rw [if_neg hc] at e2
        obtain ⟨r', e, e3⟩ := Option.map_eq_some_iff.1 e2
        cases e3
        exact hk _ _ _ _ _ e
  obtain ⟨zs, rfl⟩ := hr2
  rw [e2]
  congr 3
  apply List.ext_getElem?
  intro k
  have h1 : zs.length = prod sh := h1
  by_cases hk : k < prod sh
  · have := h2 k hk
    simp only [elemAt, List.getElem?_eq_getElem (show k < zs.length by omega), List.getElem?_eq_getElem (show k < xs.length by omega), Option.map_some, Option.some.injEq, Sum.inl.injEq] at this
    rw [List.getElem?_eq_getElem (show k < zs.length by omega), List.getElem?_eq_getElem (show k < xs.length by omega), this]
  · rw [List.getElem?_eq_none (by omega), List.getElem?_eq_none (by omega)]

example : ∃ r rsh, transpC1 (.elems (List.range 24)) [2, 3, 4] (fun _ => 0#64) (fun _ => true) (fun _ => 99) = some (r, rsh) ∧
    transpIm r rsh (fun _ => 0#64) (fun _ => true) (fun _ => 99) = some (.elems (List.range 24), [2, 3, 4]) :=
  transpose_round_trip_elems (List.range 24) [2, 3, 4] (by simp [prod]) _ _ _

example : ∃ r rsh r2, transpC1 (.bits (α := Nat) [5#64, 2#64]) [22, 3] (fun _ => 7#64) (fun _ => true) (fun _ => 99) = some (r, rsh) ∧
    transpIm r rsh (fun _ => 7#64) (fun _ => true) (fun _ => 99) = some (r2, [22, 3]) ∧ Has r2 66 ∧ ∀ k, k < 66 → elemAt r2 k = elemAt (.bits [5#64, 2#64]) k :=
  transpose_round_trip (.bits [5#64, 2#64]) [22, 3] rfl _ _ _

end Verif.Transpose
