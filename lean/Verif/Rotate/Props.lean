import Verif.Rotate.Top
/-!
# C27: Rotate

For an array of shape `sh` the element at the index `is` of the result is the one at `rotated sh vs is`, where `is[a]+vs[a]` is taken modulo the length
of axis `a`. `d` and `junk` are the contents of fresh memory.
-/
namespace Verif.Rotate
open Verif.Bits Verif.Fold Verif.Slash Verif.Rep Verif.Select Verif.Under

/-! ## A number -/

/-- `v⌽xs`. -/
theorem rotate_number {α} (d : Nat → α) (v : Int) (hv : I64 v) (sh : List Nat) (h0 : sh ≠ []) (hn : prod sh < 2^32) (xs : List α) (hx : xs.length = prod sh) :
    ∃ r, rotateOne (elemKind d) (some v) xs sh = some (.ok r) ∧ r.length = prod sh ∧ ∀ is, InShape sh is → r[ravel sh is]? = xs[ravel sh (rotated sh [v] is)]? :=
  rotateOne_index (elem_lawful d) v hv xs sh h0 hn hx

example : ∃ r, rotateOne (elemKind fun _ => '?') (some (-2)) ['a', 'b', 'c', 'd', 'e', 'f'] [3, 2] = some (.ok r) ∧ r.length = 6 ∧
    ∀ is, InShape [3, 2] is → r[ravel [3, 2] is]? = ['a', 'b', 'c', 'd', 'e', 'f'][ravel [3, 2] (rotated [3, 2] [-2] is)]? :=
  rotate_number (fun _ => '?') (-2) ⟨by decide, by decide⟩ [3, 2] (by simp) (by decide) ['a', 'b', 'c', 'd', 'e', 'f'] rfl

/-- For a list: element `(i+v) mod l` at position `i`. -/
theorem rotate_list {α} (d : Nat → α) (v : Int) (hv : I64 v) (xs : List α) (hn : xs.length < 2^32) :
    ∃ r, rotateOne (elemKind d) (some v) xs [xs.length] = some (.ok r) ∧ r.length = xs.length ∧ ∀ i : Nat, i < xs.length → r[i]? = xs[((i + v) % xs.length).toNat]? := by
  have hp : prod [xs.length] = xs.length := Nat.mul_one _
  obtain ⟨r, e, hl, hg⟩ := rotate_number d v hv [xs.length] (by simp) (by rw [hp]; exact hn) xs hp.symm
  refine ⟨r, e, hl.trans hp, fun i hi => ?_⟩
  have := hg [i] (.cons hi .nil)
  simpa [ravel, rotated, prod] using this

example : ∃ r, rotateOne (elemKind fun _ => '?') (some 9223372036854775807) ['a', 'b', 'c'] [3] = some (.ok r) ∧ r.length = 3 ∧
    ∀ i : Nat, i < 3 → r[i]? = ['a', 'b', 'c'][((i + 9223372036854775807) % 3 : Int).toNat]? :=
  rotate_list (fun _ => '?') 9223372036854775807 ⟨by decide, by decide⟩ ['a', 'b', 'c'] (by decide)

/-- `v⌽x` for booleans, in words of 64. -/
theorem rotate_number_bits (junk : Nat → Word) (v : Int) (hv : I64 v) (sh : List Nat) (h0 : sh ≠ []) (hn : prod sh < 2^32) (x : List Word) (hx : x.length = (prod sh + 63) / 64) :
    ∃ r, rotateOne (bitKind junk) (some v) x sh = some (.ok r) ∧ r.length = (prod sh + 63) / 64 ∧ ∀ is, InShape sh is → getBit r (ravel sh is) = getBit x (ravel sh (rotated sh [v] is)) :=
  rotateOne_index (bit_lawful junk) v hv x sh h0 hn hx

example : ∃ r, rotateOne (bitKind fun _ => 7#64) (some 1) [5#64, 1#64] [70] = some (.ok r) ∧ r.length = 2 ∧
    ∀ is, InShape [70] is → getBit r (ravel [70] is) = getBit [5#64, 1#64] (ravel [70] (rotated [70] [1] is)) :=
  rotate_number_bits (fun _ => 7#64) 1 ⟨by decide, by decide⟩ [70] (by simp) (by decide) [5#64, 1#64] rfl

/-- A number that isn't an integer, or an array without axes, is an error. -/
theorem rotate_number_rejects {M α} (K : Kind M α) (w : Option Int) (x : M) (sh : List Nat) (h : sh = [] ∨ ∀ v, w = some v → ¬ I64 v) : rotateOne K w x sh = some .err := by
  cases sh with
  | nil => rfl
  | cons s sh =>
    have h := h.resolve_left (by simp)
    have : o2i64 w = none := by
      cases w with
      | none => rfl
      | some v =>
        have h := h v rfl
        unfold I64 at h
        exact if_pos (by omega)
    unfold rotateOne
    dsimp only
    rw [this]

example : rotateOne (elemKind fun _ => '?') none ['a', 'b'] [2] = some .err := rotate_number_rejects _ _ _ _ (.inr fun _ h => nomatch h)

/-! ## A list -/

/-- `vs⌽xs`, or `vs⌽⁼xs` if `inv`. -/
theorem rotate_axes {α} (d : Nat → α) (inv : Bool) (vs : List Int) (hv : ∀ v ∈ vs, I64 v ∧ I64 (if inv then -v else v)) (sh : List Nat) (h0 : sh ≠ []) (hlen : vs.length ≤ sh.length)
    (hn : prod sh < 2^32) (xs : List α) (hx : xs.length = prod sh) :
    ∃ r, rotateMany (elemKind d) inv (vs.map some) xs sh = some (.ok r) ∧ r.length = prod sh ∧
      ∀ is, InShape sh is → r[ravel sh is]? = xs[ravel sh (rotated sh (vs.map fun v => if inv then -v else v) is)]? :=
  rotateMany_spec (elem_lawful d) inv vs hv xs sh h0 hlen hn hx

/-- Two amounts for three axes, the second of them a multiple of its length. -/
example : ∃ r, rotateMany (elemKind fun _ => 99) false [some 1, some 6] (List.range 24) [2, 3, 4] = some (.ok r) ∧ r.length = 24 ∧
    ∀ is, InShape [2, 3, 4] is → r[ravel [2, 3, 4] is]? = (List.range 24)[ravel [2, 3, 4] (rotated [2, 3, 4] [1, 6] is)]? :=
  rotate_axes (fun _ => 99) false [1, 6] (by unfold I64; decide)
    [2, 3, 4] (by simp) (by decide) (by decide) (List.range 24) (by simp [prod])

/-- The same for booleans. -/
theorem rotate_axes_bits (junk : Nat → Word) (inv : Bool) (vs : List Int) (hv : ∀ v ∈ vs, I64 v ∧ I64 (if inv then -v else v)) (sh : List Nat) (h0 : sh ≠ []) (hlen : vs.length ≤ sh.length)
    (hn : prod sh < 2^32) (x : List Word) (hx : x.length = (prod sh + 63) / 64) :
    ∃ r, rotateMany (bitKind junk) inv (vs.map some) x sh = some (.ok r) ∧ r.length = (prod sh + 63) / 64 ∧
      ∀ is, InShape sh is → getBit r (ravel sh is) = getBit x (ravel sh (rotated sh (vs.map fun v => if inv then -v else v) is)) :=
  rotateMany_spec (bit_lawful junk) inv vs hv x sh h0 hlen hn hx

example : ∃ r, rotateMany (bitKind fun _ => 7#64) true [some 3] [5#64, 1#64] [7, 10] = some (.ok r) ∧ r.length = 2 ∧
    ∀ is, InShape [7, 10] is → getBit r (ravel [7, 10] is) = getBit [5#64, 1#64] (ravel [7, 10] (rotated [7, 10] [-3] is)) :=
  rotate_axes_bits (fun _ => 7#64) true [3] (by unfold I64; decide) [7, 10] (by simp) (by decide) (by decide)
    [5#64, 1#64] rfl

theorem amounts_none : ∀ {ws : List (Option Int)}, (∃ w ∈ ws, o2i64 w = none) → amounts ws = none
  | [], h => by obtain ⟨w, hw, _⟩ := h; cases hw
  | w :: ws, h => by
    rw [amounts]
    cases hw : o2i64 w with
    | none => rfl
    | some v =>
      have : ∃ w ∈ ws, o2i64 w = none := by
        obtain ⟨u, hu, e⟩ := h
        rcases List.mem_cons.1 hu with h2 | h2
        · rw [h2, hw] at e
          cases e
        · exact ⟨u, h2, e⟩
      rw [amounts_none this]
      rfl

/-- More amounts than axes are an error, and so is an amount that isn't an integer. -/
theorem rotate_axes_rejects {M α} (K : Kind M α) (inv : Bool) (ws : List (Option Int)) (x : M) (sh : List Nat) (hw : ws.length ≠ 1)
    (h : ws.length > sh.length ∨ ∃ w ∈ ws, ∀ v, w = some v → ¬ I64 v) : rotateMany K inv ws x sh = some .err := by
  have hnone : (∃ w ∈ ws, ∀ v, w = some v → ¬ I64 v) → amounts ws = none := by
    rintro ⟨w, hw, hv⟩
    refine amounts_none ⟨w, hw, ?_⟩
    cases w with
    | none => rfl
    | some v =>
      have h := hv v rfl
      unfold I64 at h
      exact if_pos (by omega)
  cases sh with
  | nil =>
    have : ws.length ≠ 0 := by
      rcases h with h | ⟨w, hw, _⟩
      · exact Nat.ne_of_gt h
      · intro h2
        rw [List.length_eq_zero_iff.1 h2] at hw
        cases hw
    exact if_pos this
  | cons s sh =>
    match ws, hw with
    | [], _ =>
      exfalso
      rcases h with h | ⟨w, hw, _⟩
      · simp at h
      · cases hw
    | [_], hw => exact absurd rfl hw
    | w :: w2 :: ws, _ =>
      rw [rotateMany_two]
      by_cases hl : (w :: w2 :: ws).length > (s :: sh).length
      · rw [if_pos hl]
      · rw [if_neg hl, hnone (h.resolve_left hl)]

example : rotateMany (elemKind fun _ => '?') false [some 1, some 2] ['a', 'b'] [2] = some .err := rotate_axes_rejects _ _ _ _ _ (by decide) (.inl (by decide))

/-! ## Back -/

/-- `vs⌽⁼vs⌽xs` is `xs`. -/
theorem rotate_round_trip {α} (d : Nat → α) (vs : List Int) (hv : ∀ v ∈ vs, I64 v ∧ I64 (-v)) (sh : List Nat) (h0 : sh ≠ []) (hlen : vs.length ≤ sh.length) (hn : prod sh < 2^32) (xs : List α)
    (hx : xs.length = prod sh) :
    ∃ r, rotateMany (elemKind d) false (vs.map some) xs sh = some (.ok r) ∧ rotateMany (elemKind d) true (vs.map some) r sh = some (.ok xs) := by
  obtain ⟨r, e1, hl1, hg1⟩ := rotate_axes d false vs (fun v h => ⟨(hv v h).1, (hv v h).1⟩) sh h0 hlen hn xs hx
  obtain ⟨r2, e2, hl2, hg2⟩ := rotate_axes d true vs (fun v h => ⟨(hv v h).1, (hv v h).2⟩) sh h0 hlen hn r hl1
  refine ⟨r, e1, e2.trans ?_⟩
  congr 2
  apply List.ext_getElem?
  intro k
  by_cases hk : k < prod sh
  · obtain ⟨is, his, e⟩ := exists_index sh k hk
    rw [← e, hg2 is his]
    have := hg1 _ (his.rotated (vs.map fun v => -v))
    simp only [if_true, if_neg (show ¬ false = true by simp), List.map_id'] at this ⊢
    rw [this, rotated_neg vs his]
  · rw [List.getElem?_eq_none (by omega), List.getElem?_eq_none (by omega)]

example : ∃ r, rotateMany (elemKind fun _ => 99) false [some 1] (List.range 24) [2, 3, 4] = some (.ok r) ∧ rotateMany (elemKind fun _ => 99) true [some 1] r [2, 3, 4] = some (.ok (List.range 24)) :=
  rotate_round_trip (fun _ => 99) [1] (by unfold I64; decide) [2, 3, 4] (by simp) (by decide) (by decide)
    (List.range 24) (by simp [prod])

/-- The same for booleans: every element is as before. -/
theorem rotate_round_trip_bits (junk : Nat → Word) (vs : List Int) (hv : ∀ v ∈ vs, I64 v ∧ I64 (-v)) (sh : List Nat) (h0 : sh ≠ []) (hlen : vs.length ≤ sh.length) (hn : prod sh < 2^32) (x : List Word)
    (hx : x.length = (prod sh + 63) / 64) :
    ∃ r r2, rotateMany (bitKind junk) false (vs.map some) x sh = some (.ok r) ∧ rotateMany (bitKind junk) true (vs.map some) r sh = some (.ok r2) ∧
      ∀ k, k < prod sh → getBit r2 k = getBit x k := by
  obtain ⟨r, e1, hl1, hg1⟩ := rotate_axes_bits junk false vs (fun v h => ⟨(hv v h).1, (hv v h).1⟩) sh h0 hlen hn x hx
  obtain ⟨r2, e2, hl2, hg2⟩ := rotate_axes_bits junk true vs (fun v h => ⟨(hv v h).1, (hv v h).2⟩) sh h0 hlen hn r hl1
  refine ⟨r, r2, e1, e2, fun k hk => ?_⟩
  obtain ⟨is, his, e⟩ := exists_index sh k hk
  rw [← e, hg2 is his]
  have := hg1 _ (his.rotated (vs.map fun v => -v))
  simp only [if_true, if_neg (show ¬ false = true by simp), List.map_id'] at this ⊢
  rw [this, rotated_neg vs his]

example : ∃ r r2, rotateMany (bitKind fun _ => 7#64) false [some 3] [5#64, 1#64] [7, 10] = some (.ok r) ∧ rotateMany (bitKind fun _ => 7#64) true [some 3] r [7, 10] = some (.ok r2) ∧
      ∀ k, k < 70 → getBit r2 k = getBit [5#64, 1#64] k :=
  rotate_round_trip_bits (fun _ => 7#64) [3] (by unfold I64; decide) [7, 10] (by simp) (by decide) (by decide)
    [5#64, 1#64] rfl

/-- The one amount that can be rotated by but not back: `¯2⋆63`. -/
theorem rotate_no_way_back : rotateOne (elemKind fun _ => '?') (some (-2^63)) ['a', 'b', 'c'] [3] = some (.ok ['b', 'c', 'a']) ∧
    rotateOneInv (elemKind fun _ => '?') (some (-2^63)) ['b', 'c', 'a'] [3] = some .err := ⟨rfl, rfl⟩

end Verif.Rotate
