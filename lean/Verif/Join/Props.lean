import Verif.Join.Lists
/-!
# C57: Join

`∾𝕩` accepts exactly the arrays whose elements fit together, and puts every element of every element where it belongs.

Missing, and why it's `_partial`: when the first element of an array with two axes or more doesn't have an axis that others have, `shcpy` copies the test shape over itself (sfns.c:909). Then what fits is refused (`overlap_refuses`), and what doesn't is accepted and memory outside of the arrays used (`overlap_accepts`). The theorems are about arrays where this doesn't matter, `Copy`. A list with an atom and an array with 255 axes dereferences a null pointer (`list_rank_255`), so ranks are below that.
-/
namespace Verif.Join
open Verif.Cells (Arr Val Full)
open Verif.Rotate
variable {E : Type}

/-- An array with elements: as many as its shape says, which goes for them too, and not with 255 axes. -/
structure Items (x : Arr (Val E)) : Prop where
  full : Full x
  some : 0 < prod x.sh
  items : ∀ v ∈ x.els, v.els.length = prod v.sh
  ranks : ∀ v ∈ x.els, v.sh.length < 255

/-- No element has more axes than the first, or the first has the same length along all of its own. -/
def Copy (x : Arr (Val E)) : Prop :=
  ∀ x0, x.els[0]? = some x0 → (∀ v ∈ x.els, v.sh.length ≤ x0.sh.length) ∨ ∀ a ∈ x0.sh, ∀ b ∈ x0.sh, a = b

theorem good_of {x : Arr (Val E)} (h : Items x) (hc : Copy x) : ∃ x0, Good x x0 := by
  have hl : 0 < x.els.length := by rw [h.full]; exact h.some
  exact ⟨x.els[0], h.full, List.getElem?_eq_getElem hl, h.ranks, hc _ (List.getElem?_eq_getElem hl)⟩

/-- What fits together is put together, if the result isn't too large. -/
theorem join_fits_partial (junk : Nat → Nat) {x : Arr (Val E)} (h : Items x) (hc : 2 ≤ x.sh.length → Copy x) {ls : List Lens} {t : List Nat} (hf : Fits x ls t)
    (hst : ∀ l ∈ ls, total l < 2^32) (hN : prod (ls.map total ++ t) < 2^32) : ∃ r, join1 junk x = .ok r ∧ Joined x ls t r := by
  rw [prod_append] at hN
  have hl : 0 < x.els.length := by rw [h.full]; exact h.some
  unfold join1
  cases hs : x.sh with
  | nil =>
    have h0 := List.getElem?_eq_getElem hl
    have hls : ls = [] := by
      have := hf.lengths
      rw [hs] at this
      exact List.map_eq_nil_iff.1 this
    subst hls
    have hsh : x.els[0].sh = t := hf.shapes [] x.els[0] (by rw [hs]; exact .nil) (by rw [hs]; exact h0)
    dsimp only
    rw [h0]
    refine ⟨_, rfl, hsh, h.items _ (List.getElem_mem _), ?_⟩
    intro is v his hv ks ts hks hts
    rw [hs] at his hv
    cases his
    have hv : x.els[0]? = some v := hv
    rw [h0] at hv
    cases hv
    cases hks
    rfl
  | cons n sh =>
    cases sh with
    | nil =>
      have hn0 : 0 < n := by
        have := h.some
        rw [hs] at this
        have this : 0 < n * 1 := this
        omega
      exact joinList_fits h.full hs hn0 h.ranks h.items hf hst hN
    | cons m sh =>
      obtain ⟨x0, g⟩ := good_of h (hc (by rw [hs, List.length_cons, List.length_cons]; omega))
      exact joinAxes_fits junk g h.items (by rw [hs]; exact List.cons_ne_nil _ _) hf hst hN

/-- What doesn't is refused. -/
theorem join_unfit_partial (junk : Nat → Nat) {x : Arr (Val E)} (h : Items x) (hc : 2 ≤ x.sh.length → Copy x) (hf : ¬ ∃ ls t, Fits x ls t) : join1 junk x = .err := by
  have hl : 0 < x.els.length := by rw [h.full]; exact h.some
  unfold join1
  cases hs : x.sh with
  | nil =>
    exfalso
    refine hf ⟨[], x.els[0].sh, by rw [hs]; rfl, fun _ h => absurd h List.not_mem_nil, fun is v his hv => ?_⟩
    rw [hs] at his hv
    cases his
    have hv : x.els[0]? = some v := hv
    rw [List.getElem?_eq_getElem hl] at hv
    cases hv; rfl
  | cons n sh =>
    cases sh with
    | nil =>
      have hn0 : 0 < n := by
        have := h.some
        rw [hs] at this
        have this : 0 < n * 1 := this
        omega
      exact joinList_unfit h.full hs hn0 h.ranks hf
    | cons m sh =>
      obtain ⟨x0, g⟩ := good_of h (hc (by rw [hs, List.length_cons, List.length_cons]; omega))
      exact joinAxes_unfit junk g hf

/-- What would be too large is refused as that, if the numbers of cells and of elements in one are below the limit by themselves. See `join_wraps` for when they aren't. -/
theorem join_large_partial (junk : Nat → Nat) {x : Arr (Val E)} (h : Items x) (hr : 2 ≤ x.sh.length) (hc : Copy x) {ls : List Lens} {t : List Nat} (hf : Fits x ls t)
    (hst : ∀ l ∈ ls, total l < 2^32) (h1 : prod (ls.map total) < 2^32) (h2 : prod t < 2^32) (hN : 2^32 ≤ prod (ls.map total ++ t)) : join1 junk x = .large := by
  rw [prod_append] at hN
  obtain ⟨x0, g⟩ := good_of h hc
  unfold join1
  cases hs : x.sh with
  | nil => rw [hs] at hr; exact absurd hr (by decide)
  | cons n sh =>
    cases sh with
    | nil => rw [hs] at hr; exact absurd hr (by decide : ¬ 2 ≤ 1)
    | cons m sh => exact joinAxes_large junk g hf hst h1 h2 hN

/-- `Joined` says all of the result: there's only one. -/
theorem joined_unique {x : Arr (Val E)} (hx : Full x) {ls : List Lens} {t : List Nat} (hf : Fits x ls t) {r r' : Arr E} (h : Joined x ls t r) (h' : Joined x ls t r') : r = r' := by
  obtain ⟨sh, els⟩ := r
  obtain ⟨sh', els'⟩ := r'
  have e1 : sh = ls.map total ++ t := h.shape
  have e2 : sh' = ls.map total ++ t := h'.shape
  subst e1 e2
  congr 1
  apply List.ext_getElem?
  intro p
  by_cases hp : p < prod (ls.map total ++ t)
  · obtain ⟨js, hjs, rfl⟩ := exists_index _ p hp
    obtain ⟨j1, ts, rfl, hj1, hts⟩ := InShape.split hjs
    obtain ⟨is, ks, his, hks, rfl⟩ := place_all hj1
    rw [hf.lengths] at his
    have hrl := ravel_lt his
    rw [← hx] at hrl
    have g := List.getElem?_eq_getElem hrl
    exact (h.els is _ his g ks ts hks hts).trans (h'.els is _ his g ks ts hks hts).symm
  · rw [List.getElem?_eq_none (by have : els.length = _ := h.full; exact this ▸ Nat.le_of_not_lt hp), List.getElem?_eq_none (by have : els'.length = _ := h'.full; exact this ▸ Nat.le_of_not_lt hp)]

/-! ## A case -/

/-- `2‿2⥊⟨2‿3⥊…, 2⥊…, 3⥊…, 9⟩`: a table, a column, a row and an atom. -/
def sample : Arr (Val Nat) := ⟨[2, 2], [.arr ⟨[2, 3], [0, 1, 2, 3, 4, 5]⟩, .arr ⟨[2], [10, 11]⟩, .arr ⟨[3], [20, 21, 22]⟩, .atom 9]⟩

theorem sample_items : Items sample := by
  refine ⟨rfl, by decide, ?_, ?_⟩
  · intro v hv; simp [sample] at hv; rcases hv with rfl | rfl | rfl | rfl <;> rfl
  · intro v hv; simp [sample] at hv; rcases hv with rfl | rfl | rfl | rfl <;> decide

theorem sample_copy : Copy sample := by
  intro x0 h
  cases h
  left
  intro v hv; simp [sample] at hv; rcases hv with rfl | rfl | rfl | rfl <;> decide

theorem two {i : Nat} (h : i < 2) : i = 0 ∨ i = 1 := by omega

theorem sample_fits : Fits sample [[some 2, none], [some 3, none]] [] := by
  refine ⟨rfl, ?_, ?_⟩
  · intro l hl; simp at hl; rcases hl with rfl | rfl
    · exact ⟨2, by decide⟩
    · exact ⟨3, by decide⟩
  · intro is v his hv
    cases his with
    | cons hi h =>
      cases h with
      | cons hj h =>
        cases h
        rcases two hi with rfl | rfl <;> rcases two hj with rfl | rfl <;> cases hv <;> rfl

example : ∃ r, join1 (fun _ => 7) sample = .ok r ∧ Joined sample [[some 2, none], [some 3, none]] [] r :=
  join_fits_partial _ sample_items (fun _ => sample_copy) sample_fits (by decide) (by decide)

example : join1 (fun _ => 7) sample = .ok ⟨[3, 4], [0, 1, 2, 10, 3, 4, 5, 11, 20, 21, 22, 9]⟩ := by rfl

example : join1 (fun _ => 7) (⟨[3], [.arr ⟨[2], [0, 1]⟩, .atom 9, .arr ⟨[1], [5]⟩]⟩ : Arr (Val Nat)) = .ok ⟨[4], [0, 1, 9, 5]⟩ := by rfl

example : join1 (fun _ => 7) (⟨[2, 1], [.arr ⟨[2, 1], [0, 1]⟩, .arr ⟨[2, 2], [0, 1, 2, 3]⟩]⟩ : Arr (Val Nat)) = .err := by rfl

/-! ## Where it goes wrong -/

/-- Elements of this shape. -/
def zeros (sh : List Nat) : Val Nat := .arr ⟨sh, List.replicate (prod sh) 0⟩

/-- `∾ 2‿1⥊⟨3‿4⥊0, 5‿3‿4⥊0⟩`: the first element is one cell of the first axis; they fit, but it's refused. -/
theorem overlap_refuses : Fits ⟨[2, 1], [zeros [3, 4], zeros [5, 3, 4]]⟩ [[none, some 5], [some 3]] [4] ∧
    ∀ junk, join1 junk ⟨[2, 1], [zeros [3, 4], zeros [5, 3, 4]]⟩ = .err := by
  refine ⟨⟨rfl, ?_, ?_⟩, fun junk => rfl⟩
  · intro l hl; simp at hl; rcases hl with rfl | rfl
    · exact ⟨5, by decide⟩
    · exact ⟨3, by decide⟩
  · intro is v his hv
    cases his with
    | @cons _ i _ _ hi h =>
      cases h with
      | @cons _ j _ _ hj h =>
        cases h
        have : j = 0 := by omega
        subst this
        rcases two hi with rfl | rfl <;> cases hv <;> rfl

/-- `∾ 2‿1⥊⟨3‿4⥊0, 5‿3‿3⥊0⟩`: they don't fit, but it isn't refused, and memory outside of the arrays is used. -/
theorem overlap_accepts : (¬ ∃ ls t, Fits ⟨[2, 1], [zeros [3, 4], zeros [5, 3, 3]]⟩ ls t) ∧
    ∀ junk, join1 junk ⟨[2, 1], [zeros [3, 4], zeros [5, 3, 3]]⟩ = .undef := by
  refine ⟨?_, fun junk => rfl⟩
  rintro ⟨ls, t, h⟩
  have h0 : [3, 4] = elementShape ls [0, 0] t := h.shapes [0, 0] (zeros [3, 4]) (.cons (by decide) (.cons (by decide) .nil)) rfl
  have h1 : [5, 3, 3] = elementShape ls [1, 0] t := h.shapes [1, 0] (zeros [5, 3, 3]) (.cons (by decide) (.cons (by decide) .nil)) rfl
  have hl : ls.map List.length = [2, 1] := h.lengths
  rcases ls with _ | ⟨a, _ | ⟨b, _ | ⟨c, ls⟩⟩⟩ <;> simp at hl
  obtain ⟨ha, hb⟩ := hl
  rcases a with _ | ⟨a0, _ | ⟨a1, _ | ⟨a2, a⟩⟩⟩ <;> simp at ha
  obtain ⟨b0, rfl⟩ : ∃ b0, b = [b0] := List.length_eq_one_iff.1 hb
  obtain ⟨nb, hb⟩ := h.present [b0] (List.mem_cons_of_mem _ (List.mem_cons_self ..))
  have hb := List.mem_singleton.1 hb
  subst hb
  have e0 : [3, 4] = a0.toList ++ nb :: t := by
    rw [h0]; cases a0 <;> rfl
  have e1 : [5, 3, 3] = a1.toList ++ nb :: t := by
    rw [h1]; cases a1 <;> rfl
  cases a0 <;> cases a1 <;> simp at e0 e1
  · obtain ⟨rfl, rfl⟩ := e0
    simp at e1
  · obtain ⟨rfl, rfl⟩ := e0
    simp at e1
  · obtain ⟨_, rfl, rfl⟩ := e0
    simp at e1
  · obtain ⟨_, rfl, rfl⟩ := e0
    simp at e1

/-- Four times the same. -/
def four (v : Val E) : Arr (Val E) := ⟨[2, 2], [v, v, v, v]⟩

theorem four_items {v : Val E} (hv : v.els.length = prod v.sh) (hr : v.sh.length < 255) : Items (four v) := by
  refine ⟨rfl, (by decide : 0 < prod [2, 2]), ?_, ?_⟩ <;> intro w hw <;> simp [four] at hw <;> subst hw <;> assumption

theorem four_copy (v : Val E) : Copy (four v) := by
  intro x0 h
  cases h
  left
  intro w hw
  simp [four] at hw
  subst hw
  exact Nat.le_refl _

theorem four_fits {v : Val E} {a b : Nat} {t : List Nat} (h : v.sh = a :: b :: t) : Fits (four v) [[some a, some a], [some b, some b]] t := by
  refine ⟨rfl, ?_, ?_⟩
  · intro l hl; simp at hl; rcases hl with rfl | rfl
    · exact ⟨a, by simp⟩
    · exact ⟨b, by simp⟩
  · intro is w his hv
    cases his with
    | cons hi h' =>
      cases h' with
      | cons hj h' =>
        cases h'
        rcases two hi with rfl | rfl <;> rcases two hj with rfl | rfl <;> cases hv <;> exact h

/-- Four tables of `2⋆12` by `2⋆12` by `2⋆8` are too large. -/
example (v : Val E) (h : v.sh = [2^12, 2^12, 2^8]) (hv : v.els.length = prod v.sh) (junk : Nat → Nat) : join1 junk (four v) = .large :=
  join_large_partial junk (four_items hv (by rw [h]; decide)) (show 2 ≤ [2, 2].length by decide) (four_copy v) (four_fits h) (by decide) (by decide) (by decide) (by decide)

/-- `∾ 2‿2⥊<(2⋆15‿16)⥊0`: the number of elements, `2⋆33`, is too large, but it's only known modulo `2⋆32` (sfns.c:935). The result has that shape and no elements. -/
theorem join_wraps (v : Val E) (h : v.sh = [2^15, 2^16]) (hv : v.els.length = prod v.sh) (junk : Nat → Nat) :
    Items (four v) ∧ Copy (four v) ∧ Fits (four v) [[some (2^15), some (2^15)], [some (2^16), some (2^16)]] [] ∧ join1 junk (four v) = .ok ⟨[2^16, 2^17], []⟩ := by
  have hi := four_items hv (by rw [h]; decide)
  refine ⟨hi, four_copy v, four_fits h, ?_⟩
  obtain ⟨x0, g⟩ := good_of hi (four_copy v)
  show joinAxes junk (four v) = _
  exact joinAxes_wraps junk g (four_fits h) (by decide) (by decide)

example : ∃ v : Val Unit, v.sh = [2^15, 2^16] ∧ v.els.length = prod v.sh := ⟨.arr ⟨[2^15, 2^16], List.replicate (prod [2^15, 2^16]) ()⟩, rfl, List.length_replicate⟩

set_option maxRecDepth 4000 in
/-- `∾⟨0, (255⥊1)⥊0⟩`: they don't fit, but rather than refusing that a null pointer is used. -/
theorem list_rank_255 : (¬ ∃ ls t, Fits ⟨[2], [.atom 0, zeros (List.replicate 255 1)]⟩ ls t) ∧
    ∀ junk, join1 junk ⟨[2], [.atom 0, zeros (List.replicate 255 1)]⟩ = .undef := by
  refine ⟨?_, fun junk => rfl⟩
  rintro ⟨ls, t, h⟩
  obtain ⟨l, rfl, hf, _⟩ := fit0_of_fits (x := ⟨[2], [.atom 0, zeros (List.replicate 255 1)]⟩) rfl rfl h
  obtain ⟨o, ho⟩ := hf.mem (v := .atom 0) (List.mem_cons_self ..)
  obtain ⟨p, hp⟩ := hf.mem (v := zeros (List.replicate 255 1)) (List.mem_cons_of_mem _ (List.mem_cons_self ..))
  have h1 := congrArg List.length ho
  have h2 := congrArg List.length hp
  rw [List.length_append] at h1 h2
  have h1 : 0 = _ := h1
  have h2 : (List.replicate 255 1).length = _ := h2
  rw [List.length_replicate] at h2
  have : p.toList.length ≤ 1 := by
    cases p
    · exact Nat.zero_le _
    · exact Nat.le_refl _
  omega

end Verif.Join
