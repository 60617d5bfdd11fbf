import Verif.Take.Top
/-!
# Take and Drop: properties
-/
namespace Verif.Take
open Verif.Bits Verif.Slash Verif.Rep Verif.Select Verif.Under Verif.Rotate

/-- An index with a source has one in the argument. -/
theorem sources_in (take : Bool) (ws : List Int) (sh is js : List Nat) (hl : ws.length = sh.length) (hi : InShape (newShape take ws sh) is) (h : sources take ws sh is = some js) : InShape sh js := by
  rw [← axes_newShape take ws sh hl] at hi
  rw [sources_win take ws sh is hl hi] at h
  have := winIdx_in take (by rw [hi.length, List.length_map]) h
  rwa [axes_xs take ws sh hl] at this

/-- `ws↑x` and `ws↓x` for elements of any type, of any rank: the shape, and at every index the element of the argument it comes from, or a fill. No memory outside of the arrays is used. -/
theorem takedrop_elems {α} (d : Nat → α) (take : Bool) (ws : List Int) (f : α) (x : List α) (sh : List Nat) (hx : x.length = prod sh) :
    ∃ res, takedrop (elemKind d) take ws f x sh = some res ∧
      res.shape = newShape take (padAmounts take ws (padShape ws.length sh)) (padShape ws.length sh) ∧
      (∀ m s, res = .made m s → m.length = prod s) ∧
      ∀ is, InShape res.shape is → ∃ v, res.get (elemKind d) (ravel res.shape is) = some v ∧
        match sources take (padAmounts take ws (padShape ws.length sh)) (padShape ws.length sh) is with
        | some js => x[ravel (padShape ws.length sh) js]? = some v
        | none => v = f := by
  obtain ⟨res, e, h1, h2, h3⟩ := takedrop_spec (elem_lawful d) take ws f x sh hx
  refine ⟨res, e, h1, h2, fun is his => ?_⟩
  rw [h1] at his ⊢
  rw [h3 is his]
  cases hs : sources take (padAmounts take ws (padShape ws.length sh)) (padShape ws.length sh) is with
  | none => exact ⟨f, rfl, rfl⟩
  | some js =>
    have := ravel_lt (sources_in take _ _ is js (padAmounts_length take ws _ (by rw [padShape_length]; omega)) his hs)
    rw [prod_padShape, ← hx] at this
    exact ⟨x[ravel (padShape ws.length sh) js], List.getElem?_eq_getElem this, List.getElem?_eq_getElem this⟩

/-- The same for bits. A new array has one word of memory after its own, which keeps its value `junk`. -/
theorem takedrop_bits (junk : Nat → Word) (take : Bool) (ws : List Int) (f : Bool) (x : List Word) (sh : List Nat) (hx : x.length = (prod sh + 63) / 64) :
    ∃ res, takedrop (bitKind junk) take ws f x sh = some res ∧
      res.shape = newShape take (padAmounts take ws (padShape ws.length sh)) (padShape ws.length sh) ∧
      (∀ m s, res = .made m s → m.length = (prod s + 63) / 64 + 1 ∧ m[(prod s + 63) / 64]? = some (junk ((prod s + 63) / 64))) ∧
      ∀ is, InShape res.shape is → ∃ v, res.get (bitKind junk) (ravel res.shape is) = some v ∧
        match sources take (padAmounts take ws (padShape ws.length sh)) (padShape ws.length sh) is with
        | some js => getBit x (ravel (padShape ws.length sh) js) = some v
        | none => v = f := by
  obtain ⟨res, e, h1, h2, h3⟩ := takedrop_spec (bit_lawful junk) take ws f x sh hx
  refine ⟨res, e, h1, h2, fun is his => ?_⟩
  rw [h1] at his ⊢
  rw [h3 is his]
  cases hs : sources take (padAmounts take ws (padShape ws.length sh)) (padShape ws.length sh) is with
  | none => exact ⟨f, rfl, rfl⟩
  | some js =>
    have := ravel_lt (sources_in take _ _ is js (padAmounts_length take ws _ (by rw [padShape_length]; omega)) his hs)
    rw [prod_padShape] at this
    have hg := getBit_some (m := x) (k := ravel (padShape ws.length sh) js) (by omega)
    exact ⟨_, hg, hg⟩

/-- `w↑x` of a list. -/
theorem take_list {α} (d : Nat → α) (w : Int) (f : α) (x : List α) :
    ∃ r, takedrop (elemKind d) true [w] f x [x.length] = some (.made r [w.natAbs]) ∧
      r = if 0 ≤ w then x.take w.natAbs ++ List.replicate (w.natAbs - x.length) f else List.replicate (w.natAbs - x.length) f ++ x.drop (x.length - w.natAbs) := by
  obtain ⟨m, e, ok, g⟩ := takeOne_cons (elem_lawful d) w f x x.length [] (by rw [prod, prod, Nat.mul_one])
  rw [prod, prod, Nat.mul_one] at ok
  refine ⟨m, e, List.ext_getElem? fun k => ?_⟩
  by_cases hk : k < w.natAbs
  · have := g k [] hk .nil
    rw [show ravel [w.natAbs] [k] = k by rw [ravel, prod, ravel, Nat.mul_one, Nat.add_zero]; intros; contradiction, want_one] at this
    refine (show m[k]? = _ from this).trans ?_
    unfold source
    by_cases hw : 0 ≤ w
    · rw [if_pos hw, decide_eq_false (by omega)]
      simp only
      by_cases hx : k < x.length
      · rw [if_pos hx, List.getElem?_append_left (by rw [List.length_take]; omega), List.getElem?_take_of_lt hk]
        show x[k * 1 + ravel [] []]? = _
        rw [ravel, Nat.mul_one, Nat.add_zero]
        intros; contradiction
      · rw [if_neg hx, List.getElem?_append_right (by rw [List.length_take]; omega), List.getElem?_replicate, if_pos (by rw [List.length_take]; omega)]
    · rw [if_neg hw, decide_eq_true (by omega)]
      simp only
      by_cases hx : w.natAbs ≤ k + x.length
      · rw [if_pos hx, List.getElem?_append_right (by rw [List.length_replicate]; omega), List.getElem?_drop, List.length_replicate]
        show x[(k + x.length - w.natAbs) * 1 + ravel [] []]? = _
        rw [ravel, Nat.mul_one, Nat.add_zero]
        · congr 1; omega
        · intros; contradiction
      · rw [if_neg hx, List.getElem?_append_left (by rw [List.length_replicate]; omega), List.getElem?_replicate, if_pos (by omega)]
  · rw [List.getElem?_eq_none (by omega)]
    split
    · rw [List.getElem?_eq_none (by rw [List.length_append, List.length_take, List.length_replicate]; omega)]
    · rw [List.getElem?_eq_none (by rw [List.length_append, List.length_drop, List.length_replicate]; omega)]

/-- `w↓x` of a list. -/
theorem drop_list {α} (d : Nat → α) (w : Int) (f : α) (x : List α) :
    ∃ r, takedrop (elemKind d) false [w] f x [x.length] = some (.made r [x.length - w.natAbs]) ∧
      r = if 0 ≤ w then x.drop w.natAbs else x.take (x.length - w.natAbs) := by
  obtain ⟨m, e, ok, g⟩ := dropOne_cons (elem_lawful d) w f x x.length [] (by rw [prod, prod, Nat.mul_one])
  rw [prod, prod, Nat.mul_one] at ok
  refine ⟨m, e, List.ext_getElem? fun k => ?_⟩
  by_cases hk : k < x.length - w.natAbs
  · have := g k [] hk .nil
    rw [show ravel [x.length - w.natAbs] [k] = k by rw [ravel, prod, ravel, Nat.mul_one, Nat.add_zero]; intros; contradiction, want_one] at this
    refine (show m[k]? = _ from this).trans ?_
    unfold source
    by_cases hw : 0 ≤ w
    · rw [if_pos hw, decide_eq_false (by omega)]
      show x[(k + w.natAbs) * 1 + ravel [] []]? = _
      rw [ravel, Nat.mul_one, Nat.add_zero, List.getElem?_drop, Nat.add_comm]
      intros; contradiction
    · rw [if_neg hw, decide_eq_true (by omega)]
      show x[k * 1 + ravel [] []]? = _
      rw [ravel, Nat.mul_one, Nat.add_zero, List.getElem?_take_of_lt hk]
      intros; contradiction
  · rw [List.getElem?_eq_none (by omega)]
    split
    · rw [List.getElem?_eq_none (by rw [List.length_drop]; omega)]
    · rw [List.getElem?_eq_none (by rw [List.length_take]; omega)]

/-- Finding: filling with bits up to a multiple of 64 reads and writes the word after, so without memory after the array it isn't defined (it's written back unchanged when there is). -/
theorem fillBits_word_after (v : Bool) (w : Word) : fillBits v 2 62 [w] = none := by
  cases v <;> rfl

/-! ## Examples -/

/-- `¯3‿2↑2‿3⥊1+↕6`: fills before the elements. -/
example : (takedrop (elemKind fun _ => 99) true [-3, 2] 0 [1, 2, 3, 4, 5, 6] [2, 3]).map (fun r => (r.shape, (List.range 6).map (r.get (elemKind fun _ => 99)))) =
    some ([3, 2], [some 0, some 0, some 1, some 2, some 4, some 5]) := by decide +kernel
/-- Rows and columns out of the middle. -/
example : (takedrop (elemKind fun _ => 99) false [1, -1] 0 [1, 2, 3, 4, 5, 6] [2, 3]).map (fun r => (r.shape, (List.range 2).map (r.get (elemKind fun _ => 99)))) =
    some ([1, 2], [some 4, some 5]) := by decide +kernel
example : (takedrop (bitKind fun _ => 0xAAAA#64) true [2, 3] true [0b1001#64] [2, 2]).map (fun r => (r.shape, (List.range 6).map (r.get (bitKind fun _ => 0xAAAA#64)))) =
    some ([2, 3], [some true, some false, some true, some false, some true, some true]) := by decide +kernel
/-- A longer `𝕨`. -/
example : (takedrop (elemKind fun _ => 99) true [2, 2] 0 [7] []).map (fun r => (r.shape, (List.range 4).map (r.get (elemKind fun _ => 99)))) =
    some ([2, 2], [some 7, some 0, some 0, some 0]) := by decide +kernel
example : ([1, 2, 3, 4, 5, 6] : List Nat).length = prod [2, 3] := by decide
example : ([0b1001#64] : List Word).length = (prod [2, 2] + 63) / 64 := by decide
example : sources true [-3, 2] [2, 5] [1, 1] = some [0, 1] ∧ InShape (newShape true [-3, 2] [2, 5]) [1, 1] := ⟨by decide, .cons (by decide) (.cons (by decide) .nil)⟩

end Verif.Take
