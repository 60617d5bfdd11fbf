import Verif.Axes.Main
/-!
# Select along several axes: properties
-/
namespace Verif.Axes
open Verif.Rotate Verif.Select
variable {α : Type}

/-- `𝕨` and `𝕩` are arrays. -/
structure Args (w : List Idx) (xsh : List Nat) (xs : List α) : Prop where
  several : 2 ≤ w.length
  indices : ∀ u ∈ w, u.Full
  elements : xs.length = prod xsh
  most : xs.length < 2^32

/-- `𝕩` has elements, or the result has none because there are no indices: missing are only results that are empty since cells of `𝕩` are (`empty_cells_undefined`). -/
def NotEmptyCells (w : List Idx) (xs : List α) : Prop := xs ≠ [] ∨ ∃ u ∈ w, u.is = []

theorem size_zero : ∀ {w : List Idx}, (∀ u ∈ w, u.Full) → (∃ u ∈ w, u.is = []) → size w = 0
  | [], _, ⟨_, h, _⟩ => by cases h
  | v :: w, hF, ⟨u, hu, he⟩ => by
    rw [size_cons]
    rcases List.mem_cons.1 hu with rfl | hu
    · have := (hF u (by simp)).1
      rw [he] at this
      rw [← this]; simp
    · rw [size_zero (fun x hx => hF x (List.mem_cons_of_mem _ hx)) ⟨u, hu, he⟩, Nat.mul_zero]

theorem parse_of {w : List Idx} {xsh : List Nat} {ps : List (List Nat)} (hm : Means w xsh ps) : ∃ maybe, parse w xsh = some (ps, maybe) := by
  have := parse_means hm
  cases e : parse w xsh with
  | none => rw [e] at this; cases this
  | some r => rw [e] at this; cases this; exact ⟨r.2, rfl⟩

theorem result_rank {w : List Idx} {xsh : List Nat} : (resultShape w xsh).length = xsh.length - w.length + (w.map Idx.sh).flatten.length := by
  rw [resultShape, List.length_append, List.length_drop]; omega

theorem no_picks : ∀ {w : List Idx} {ps : List (List Nat)} {is qs : List Nat}, size w = 0 → Picks w ps is qs → False := by
  intro w ps is qs h hp
  have := ravel_lt hp.inShape
  rw [show prod (w.map Idx.sh).flatten = size w from rfl, h] at this
  omega

/-- What the code does once the indices are right and the rank isn't too large. -/
theorem selectAxes_eq (typed : Bool) {w : List Idx} {xsh : List Nat} {xs : List α} {ps : List (List Nat)} {maybe : Bool} (hF : ∀ u ∈ w, u.Full) (hm : Means w xsh ps)
    (hp : parse w xsh = some (ps, maybe)) (hr : (resultShape w xsh).length ≤ 255) :
    selectAxes typed w xsh xs =
      match (if size w % 2^64 = 0 then .ok [] [] else if xs.length = 0 then .ub else match spans ps xsh maybe with | none => .err | some s => select typed s xs : Res α) with
      | .ok _ r => .ok (if (resultShape w xsh).length ≥ 2 then resultShape w xsh else if (resultShape w xsh).length = 1 then [r.length] else []) r
      | .err => .err
      | .ub => .ub := by
  have hl := hm.len
  have hc : count ps = size w % 2^64 := by
    have := count_eq hm hF 1
    rw [Nat.one_mul] at this
    exact this
  unfold selectAxes
  rw [if_neg (by omega), hp]
  simp only
  rw [rank_eq, ← result_rank, if_neg (by omega), hc]
  rfl

/-- `⟨i,j,…⟩⊏𝕩` has, at each index of all arrays of indices and of the other axes, the element of `𝕩` at the numbers there. -/
theorem select_axes_partial (typed : Bool) {w : List Idx} {xsh : List Nat} {xs : List α} {ps : List (List Nat)} (ha : Args w xsh xs) (hm : Means w xsh ps)
    (hr : (resultShape w xsh).length ≤ 255) (h32 : prod (resultShape w xsh) < 2^32) (hB : typed = false → prod (resultShape w xsh) ≤ 2^31 / 8 - 1000)
    (hE : NotEmptyCells w xs) :
    ∃ rsh r, selectAxes typed w xsh xs = .ok rsh r ∧ IsSelect w ps xsh xs rsh r := by
  obtain ⟨maybe, hp⟩ := parse_of hm
  rw [selectAxes_eq typed ha.indices hm hp hr]
  have hprod : prod (resultShape w xsh) = size w * prod (xsh.drop w.length) := by rw [resultShape, prod_append]; rfl
  by_cases h0 : size w = 0
  · rw [h0, if_pos rfl]
    refine ⟨_, _, rfl, ?_⟩
    have hp0 : prod (resultShape w xsh) = 0 := by rw [hprod, h0, Nat.zero_mul]
    rw [shape_eq (resultShape w xsh) ([] : List α).length (by rw [hp0]; rfl)]
    exact ⟨rfl, by rw [hp0]; rfl, fun is qs rest hpk _ => (no_picks h0 hpk).elim⟩
  · have hx : xs ≠ [] := by
      rcases hE with h | h
      · exact h
      · exact absurd (size_zero ha.indices h) h0
    have hxl : 0 < xs.length := List.length_pos_iff.2 hx
    have hx0 : 0 < prod (xsh.take w.length) * prod (xsh.drop w.length) := by rw [← prod_split, ← ha.elements]; exact hxl
    have hs : size w < 2^32 := by
      have := Nat.le_mul_of_pos_right (size w) (Nat.pos_of_mul_pos_left hx0)
      omega
    rw [if_neg (by rw [Nat.mod_eq_of_lt (by omega)]; exact h0), if_neg (by omega)]
    have hd : prod (xsh.drop w.length) < 2^32 := by
      have : prod (xsh.drop w.length) ≤ prod (xsh.take w.length) * prod (xsh.drop w.length) := Nat.le_mul_of_pos_left _ (Nat.pos_of_mul_pos_right hx0)
      rw [← prod_split, ← ha.elements] at this
      have := ha.most
      omega
    obtain ⟨s, h1, hg⟩ := spans_spec maybe ha.several hm ha.indices (by omega) hs hd
    rw [h1]
    simp only
    obtain ⟨r, k1, k2, k3⟩ := select_spec typed s xs (by rw [hg.count, ← hprod]; exact h32) (fun h => by rw [hg.count, ← hprod]; exact hB h)
      (by rw [ha.elements]; exact hg.within)
    rw [k1]
    refine ⟨_, _, rfl, ?_⟩
    have hlen : r.length = prod (resultShape w xsh) := by rw [k2, hg.count, hprod]
    rw [shape_eq _ r.length hlen]
    refine ⟨rfl, hlen, ?_⟩
    intro is qs rest hpk hrest
    obtain ⟨j, c, t, g1, g2, g3, g4⟩ := hg.place is qs rest hpk hrest
    rw [g3, g4]
    exact k3 j c t g1 g2

example : selectAxes true [⟨[2], [some 1, some (-1)]⟩, ⟨[], [some 0]⟩] [3, 2, 2] ['a', 'b', 'c', 'd', 'e', 'f', 'g', 'h', 'i', 'j', 'k', 'l'] = .ok [2, 2] ['e', 'f', 'i', 'j'] := by decide +kernel
example : selectAxes true [⟨[2], [some 1, some 0]⟩, ⟨[2, 2], [some 1, some 2, some 3, some 4]⟩] [2, 5] [0, 1, 2, 3, 4, 5, 6, 7, 8, 9] = .ok [2, 2, 2] [6, 7, 8, 9, 1, 2, 3, 4] := by decide +kernel
example : Means [⟨[2], [some 1, some (-1)]⟩, ⟨[], [some 0]⟩] [3, 2, 2] [[1, 2], [0]] := .cons rfl (.cons rfl (.nil _))
example : Args [⟨[2], [some 1, some (-1)]⟩, ⟨[], [some 0]⟩] [3, 2, 2] ['a', 'b', 'c', 'd', 'e', 'f', 'g', 'h', 'i', 'j', 'k', 'l'] where
  several := by decide
  indices := by
    intro u hu
    simp only [List.mem_cons, List.not_mem_nil, or_false] at hu
    rcases hu with rfl | rfl <;> exact ⟨by decide, by decide⟩
  elements := by decide
  most := by decide

/-- An index that isn't an integer, or that is outside of its axis, is an error, as are more arrays of indices than there are axes. -/
theorem select_axes_refuses (typed : Bool) {w : List Idx} {xsh : List Nat} {xs : List α} (h : ∀ ps, ¬ Means w xsh ps) : selectAxes typed w xsh xs = .err := by
  have : parse w xsh = none := by
    cases e : parse w xsh with
    | none => rfl
    | some r => exact absurd (means_parse (ps := r.1) (by rw [e]; rfl)) (h _)
  unfold selectAxes
  rw [this]
  simp

example : ∀ ps, ¬ Means [⟨[1], [some 2]⟩, ⟨[1], [some 0]⟩] [2, 2] ps := by
  rintro ps h
  cases h with
  | cons h _ => exact absurd (h.symm.trans (show positions 2 [some 2] = none by decide)) nofun
example : ∀ ps, ¬ Means [⟨[1], [some 0]⟩, ⟨[1], [some 0]⟩] [2] ps := by
  rintro ps h
  cases h with
  | cons _ h => cases h

/-- A result that is too large for elements that are objects is an error. -/
theorem select_axes_large {w : List Idx} {xsh : List Nat} {xs : List α} {ps : List (List Nat)} (ha : Args w xsh xs) (hm : Means w xsh ps)
    (hr : (resultShape w xsh).length ≤ 255) (hs : 0 < size w) (h32 : size w < 2^32) (hB : 2^31 / 8 - 1000 < prod (resultShape w xsh)) (hx : xs ≠ []) (h1 : 1 < prod (xsh.drop w.length)) :
    selectAxes false w xsh xs = .err := by
  obtain ⟨maybe, hp⟩ := parse_of hm
  rw [selectAxes_eq false ha.indices hm hp hr]
  have hprod : prod (resultShape w xsh) = size w * prod (xsh.drop w.length) := by rw [resultShape, prod_append]; rfl
  have hxl : 0 < xs.length := List.length_pos_iff.2 hx
  rw [if_neg (by rw [Nat.mod_eq_of_lt (by omega)]; omega), if_neg (by omega)]
  have hd : prod (xsh.drop w.length) < 2^32 := by
    have hx0 : 0 < prod (xsh.take w.length) * prod (xsh.drop w.length) := by rw [← prod_split, ← ha.elements]; exact hxl
    have : prod (xsh.drop w.length) ≤ prod (xsh.take w.length) * prod (xsh.drop w.length) := Nat.le_mul_of_pos_left _ (Nat.pos_of_mul_pos_right hx0)
    rw [← prod_split, ← ha.elements] at this
    have := ha.most
    omega
  obtain ⟨s, e1, hg⟩ := spans_spec maybe ha.several hm ha.indices hs h32 hd
  have h2 := span_gt e1 (by have := hm.len; rw [this.1]; exact h1) (by have := hm.len; rw [this.1]; exact hd)
  rw [e1]
  simp only
  unfold select
  rw [if_pos (by omega), hg.count, ← hprod]
  simp only [Bool.not_false, Bool.true_and]
  rw [if_pos (by simpa using hB)]

/-- The same for numbers or characters writes outside of the result: its length is kept in 32 bits. -/
theorem large_result_writes_outside {w : List Idx} {xsh : List Nat} {xs : List α} {ps : List (List Nat)} (ha : Args w xsh xs) (hm : Means w xsh ps)
    (hr : (resultShape w xsh).length ≤ 255) (hs : 0 < size w) (h32 : size w < 2^32) (hB : 2^32 ≤ prod (resultShape w xsh)) (hx : xs ≠ []) (h1 : 1 < prod (xsh.drop w.length)) :
    selectAxes true w xsh xs = .ub := by
  obtain ⟨maybe, hp⟩ := parse_of hm
  rw [selectAxes_eq true ha.indices hm hp hr]
  have hprod : prod (resultShape w xsh) = size w * prod (xsh.drop w.length) := by rw [resultShape, prod_append]; rfl
  have hxl : 0 < xs.length := List.length_pos_iff.2 hx
  rw [if_neg (by rw [Nat.mod_eq_of_lt (by omega)]; omega), if_neg (by omega)]
  have hd : prod (xsh.drop w.length) < 2^32 := by
    have hx0 : 0 < prod (xsh.take w.length) * prod (xsh.drop w.length) := by rw [← prod_split, ← ha.elements]; exact hxl
    have : prod (xsh.drop w.length) ≤ prod (xsh.take w.length) * prod (xsh.drop w.length) := Nat.le_mul_of_pos_left _ (Nat.pos_of_mul_pos_right hx0)
    rw [← prod_split, ← ha.elements] at this
    have := ha.most
    omega
  obtain ⟨s, e1, hg⟩ := spans_spec maybe ha.several hm ha.indices hs h32 hd
  have h2 := span_gt e1 (by have := hm.len; rw [this.1]; exact h1) (by have := hm.len; rw [this.1]; exact hd)
  rw [e1]
  simp only
  unfold select
  rw [if_pos (by omega), hg.count, ← hprod]
  simp only [Bool.not_true, Bool.false_and, Bool.false_eq_true, if_false, if_true]
  cases e : copies s.span (prod (resultShape w xsh) % 2^32) xs (s.starts.map fun c => s.add + s.mul * c) [] with
  | none => rfl
  | some r =>
    have := copies_fits _ _ _ _ _ _ (by simp) e
    rw [List.length_map, hg.count, ← hprod] at this
    simp only [List.length_nil] at this
    have := Nat.mod_lt (prod (resultShape w xsh)) (show 0 < 2^32 by decide)
    omega

theorem positions_zeros (l n : Nat) (h : 0 < l) : positions l (List.replicate n (some 0)) = some (List.replicate n 0) := by
  induction n with
  | zero => rfl
  | succ n ih =>
    rw [List.replicate_succ, positions_cons, ih]
    show (position l 0).bind _ = _
    rw [show position l 0 = some 0 from if_pos ⟨by decide, by omega⟩]
    rfl

/-- `n⥊0` -/
def zeros (n : Nat) : Idx := ⟨[n], List.replicate n (some 0)⟩

theorem zeros_full {n : Nat} (h : n < 2^32) : (zeros n).Full := ⟨by show (List.replicate n _).length = n * 1; rw [List.length_replicate, Nat.mul_one], by show (List.replicate n _).length < _; rw [List.length_replicate]; exact h⟩

/-- `⟨1024⥊0,1024⥊0⟩⊏1‿1‿4096⥊𝕩` is one such: a result of 2⋆32 elements. -/
theorem large_result_example (xs : List Char) (h : xs.length = 4096) : selectAxes true [zeros 1024, zeros 1024] [1, 1, 4096] xs = .ub := by
  have hm : Means [zeros 1024, zeros 1024] [1, 1, 4096] [List.replicate 1024 0, List.replicate 1024 0] :=
    .cons (positions_zeros 1 1024 (by decide)) (.cons (positions_zeros 1 1024 (by decide)) (.nil _))
  have hw : ∀ u ∈ [zeros 1024, zeros 1024], u.Full := by
    intro u hu
    simp only [List.mem_cons, List.not_mem_nil, or_false, or_self] at hu
    rw [hu]; exact zeros_full (by decide)
  exact large_result_writes_outside ⟨by simp, hw, by rw [h]; decide, by rw [h]; decide⟩ hm (by decide) (by decide) (by decide) (by decide)
    (by intro e; rw [e] at h; cases h) (by decide)

/-- The number of elements is computed in 64 bits: where that is 0, the result has no elements, although its shape says that it has. -/
theorem count_wraps (xs : List α) : selectAxes true [zeros 65536, zeros 65536, zeros 65536, zeros 65536] [1, 1, 1, 1] xs = .ok [65536, 65536, 65536, 65536] [] := by
  have hz := positions_zeros 1 65536 (by decide)
  have hm : Means [zeros 65536, zeros 65536, zeros 65536, zeros 65536] [1, 1, 1, 1] _ := .cons hz (.cons hz (.cons hz (.cons hz (.nil _))))
  have hw : ∀ u ∈ [zeros 65536, zeros 65536, zeros 65536, zeros 65536], u.Full := by
    intro u hu
    simp only [List.mem_cons, List.not_mem_nil, or_false, or_self] at hu
    rw [hu]; exact zeros_full (by decide)
  obtain ⟨maybe, hp⟩ := parse_of hm
  rw [selectAxes_eq true hw hm hp (by decide), if_pos (by decide)]
  simp only
  rw [if_pos (by decide)]
  rfl

/-- Where `𝕩` has no elements but there are indices, and all of them are right, the code is undefined: it asserts that there are elements. -/
theorem empty_cells_undefined : selectAxes true [⟨[2], [some 0, some 1]⟩, ⟨[1], [some 0]⟩] [2, 3, 0] ([] : List Char) = .ub ∧
    Means [⟨[2], [some 0, some 1]⟩, ⟨[1], [some 0]⟩] [2, 3, 0] [[0, 1], [0]] :=
  ⟨by decide +kernel, .cons rfl (.cons rfl (.nil _))⟩

end Verif.Axes
