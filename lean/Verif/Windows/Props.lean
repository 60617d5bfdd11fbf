import Verif.Windows.Main
/-!
# Windows: properties
-/
namespace Verif.Windows
open Verif.Rotate

/-- **C66**: `𝕨↕𝕩` has, for each place, the window at it. Axes of `2⋆32 - 1` elements, and pairs of a list of `2⋆31` elements, are left out: see `long_axis_refused`, `long_axis_empty` and `pairs_refused`. -/
theorem windows_gives {α} {rank : Nat} {ws a b : List Nat} {x : List α} (hrank : rank ≤ 1) (hlen : (a ++ b).length + ws.length ≤ 255)
    (hx : x.length = prod (a ++ b)) (hx32 : x.length < 2^32) (hf : Fits ws a) (ha : ∀ l ∈ a, l < 2^32 - 1)
    (hp : prod (places ws a ++ ws ++ b) < 2^32) (h2 : ¬(ws = [2] ∧ a = [2^31] ∧ b = [])) :
    ∃ rsh r, windows rank (ws.map Int.ofNat) (a ++ b) x = .ok (rsh, r) ∧ IsWindows ws a b x rsh r := by
  unfold windows
  rw [if_neg (by omega), List.length_map]
  by_cases c0 : ws.length = 0
  · rw [if_pos c0]
    cases hf with
    | cons => cases c0
    | nil =>
      refine ⟨_, _, rfl, rfl, hx, fun p q c hp hq hc => ?_⟩
      cases hp
      cases hq
      rfl
  rw [if_neg c0]
  have la := hf.length
  have lp := hf.places_length
  rw [if_neg (by rw [List.length_append]; omega), if_neg (by omega), mapM_o2s (hf.small ha)]
  obtain ⟨e, h1, he⟩ := frame_ok hf ha b
  dsimp only
  rw [h1]
  dsimp only
  rw [show (a ++ b).drop ws.length = b by rw [la, List.drop_left]]
  by_cases c1 : x.length = 0 ∨ e = true
  · rw [if_pos c1]
    have hzero : prod (places ws a ++ (ws ++ b)) = 0 := by
      rw [prod_append, prod_append]
      rcases c1 with h | h
      · rw [hx, prod_append] at h
        rcases Nat.mul_eq_zero.1 h with h | h
        · have hz : ∀ {ws a : List Nat}, Fits ws a → prod a = 0 → prod (places ws a) * prod ws = 0 := by
            intro ws a h
            induction h with
            | nil => intro h; cases h
            | @cons m l ws a hm _ ih =>
              intro h
              have h : l * prod a = 0 := h
              show (l + 1 - m) * prod (places ws a) * (m * prod ws) = 0
              rcases Nat.mul_eq_zero.1 h with h | h
              · have : m = 0 ∨ l + 1 - m = 0 := by omega
                rcases this with h | h
                · rw [h, Nat.zero_mul, Nat.mul_zero]
                · rw [h, Nat.zero_mul, Nat.zero_mul]
              · rcases Nat.mul_eq_zero.1 (ih h) with h | h
                · rw [h, Nat.mul_zero, Nat.zero_mul]
                · rw [h, Nat.mul_zero, Nat.mul_zero]
          rw [← Nat.mul_assoc, hz hf h, Nat.zero_mul]
        · rw [h, Nat.mul_zero, Nat.mul_zero]
      · rcases he.1 h with h | h
        · rw [prod_zero h, Nat.zero_mul, Nat.mul_zero]
        · rw [prod_zero h, Nat.zero_mul]
    refine ⟨_, _, rfl, (List.append_assoc ..).symm, hzero.symm, fun p q c hp hq hc => ?_⟩
    have := ravel_lt (hp.append (hq.append hc))
    omega
  rw [if_neg c1]
  have hx0 : x.length ≠ 0 := fun h => c1 (.inl h)
  have hw0 : ∀ m ∈ ws, 0 < m := fun m hm => Nat.pos_of_ne_zero fun h => c1 (.inr (he.2 (.inl (h ▸ hm))))
  have hp0 : ∀ m ∈ places ws a, 0 < m := fun m hm => Nat.pos_of_ne_zero fun h => c1 (.inr (he.2 (.inr (h ▸ hm))))
  have ha0 : ∀ m ∈ a, 0 < m := fun m hm => Nat.pos_of_ne_zero fun h => hx0 (by rw [hx]; exact prod_zero (List.mem_append_left _ (h ▸ hm)))
  have hb0 : ∀ m ∈ b, 0 < m := fun m hm => Nat.pos_of_ne_zero fun h => hx0 (by rw [hx]; exact prod_zero (List.mem_append_right _ (h ▸ hm)))
  have hpb : 0 < prod b := prod_pos hb0
  by_cases c2 : ws.length = 1 ∧ ws = [2] ∧ (a ++ b).length = 1
  · rw [if_pos c2]
    obtain ⟨-, rfl, hl⟩ := c2
    match a, la with
    | [n], _ =>
      have : b = [] := by
        cases b with
        | nil => rfl
        | cons => simp at hl
      subst this
      have hn : x.length = n := by rw [hx]; exact Nat.mul_one n
      have hn2 : 2 ≤ n := by
        have : 0 < n + 1 - 2 := hp0 (n + 1 - 2) (by simp [places])
        omega
      have hpp : (n + 1 - 2) * (2 * 1) < 2^32 := hp
      have h2 : n ≠ 2^31 := fun h => h2 ⟨rfl, by rw [h], rfl⟩
      obtain ⟨r, g1, g2⟩ := pairs_ok (x := x) (by omega) (by omega)
      rw [g1]
      refine ⟨_, r, rfl, ?_⟩
      rw [hn, show n - 1 = n + 1 - 2 by omega] at g2
      exact g2
  rw [if_neg c2]
  have e1 : (places ws a ++ (ws ++ b)).drop (2 * ws.length) = b := by
    rw [← List.append_assoc, show 2 * ws.length = (places ws a ++ ws).length by rw [List.length_append]; omega, List.drop_left]
  have e2 : (places ws a ++ (ws ++ b)).take (2 * ws.length) = places ws a ++ ws := by
    rw [← List.append_assoc, show 2 * ws.length = (places ws a ++ ws).length by rw [List.length_append]; omega, List.take_left]
  have hb32 : prod b ≤ x.length := by
    rw [hx, prod_append]
    exact Nat.le_mul_of_pos_left _ (prod_pos ha0)
  have hria : prod b * prod (places ws a ++ ws) < 2^32 := by
    rw [Nat.mul_comm, ← prod_append]
    exact hp
  rw [e1, mulAll_ok hb0 (by omega), Nat.one_mul]
  dsimp only
  rw [e2, mulAll_ok (fun l hl => (List.mem_append.1 hl).elim (hp0 l) (hw0 l)) hria]
  dsimp only
  by_cases c3 : ws.length = 1
  · rw [if_pos c3]
    match ws, a, c3, la with
    | [m], [l], _, _ =>
      have hm := hw0 m (by simp)
      have hml : 0 < l + 1 - m := hp0 (l + 1 - m) (by simp [places])
      obtain ⟨r, g1, g2⟩ := one_ok (m := m) (l := l) (b := b) (x := x) hx hx32 hm (by omega) hpb hp
      have : (places [m] [l] ++ ([m] ++ b)).getD (2 * [m].length - 1) 0 = m := rfl
      rw [this]
      rw [show places [m] [l] = [l + 1 - m] from rfl, g1]
      exact ⟨_, r, rfl, g2⟩
  · rw [if_neg c3]
    obtain ⟨r, g1, g2⟩ := several_ok hf (by omega) hx hx32 hw0 hp0 ha0 hpb hp
    rw [g1]
    exact ⟨_, r, rfl, g2⟩

example : ∃ rsh r, windows 1 ([2, 2].map Int.ofNat) ([3, 3] ++ [1]) (List.range 9) = .ok (rsh, r) ∧ IsWindows [2, 2] [3, 3] [1] (List.range 9) rsh r :=
  windows_gives (by decide) (by decide) rfl (by decide) (.cons (by decide) (.cons (by decide) .nil)) (by decide) (by decide) (by decide)

example : windows 1 [2] [3, 2] [1, 2, 3, 4, 5, 6] = .ok ([2, 2, 2], [1, 2, 3, 4, 3, 4, 5, 6]) := by decide +kernel
example : windows 0 [2] [3] [1, 2, 3] = .ok ([2, 2], [1, 2, 2, 3]) := by decide +kernel
example : windows 1 [2, 2] [3, 3] [0, 1, 2, 3, 4, 5, 6, 7, 8] =
    .ok ([2, 2, 2, 2], [0, 1, 3, 4, 1, 2, 4, 5, 3, 4, 6, 7, 4, 5, 7, 8]) := by decide +kernel
example : windows 1 [2, 1, 2] [3, 1, 3, 1] [0, 1, 2, 3, 4, 5, 6, 7, 8] =
    .ok ([2, 1, 2, 2, 1, 2, 1], [0, 1, 3, 4, 1, 2, 4, 5, 3, 4, 6, 7, 4, 5, 7, 8]) := by decide +kernel

/-- `𝕨` of more axes, longer than the rank of `𝕩`, with numbers that aren't natural or windows that don't fit, and results that are too large, are errors. -/
theorem windows_refuses {α} {rank : Nat} {w : List Int} {xsh : List Nat} {x : List α}
    (h : 1 < rank ∨ (rank ≤ 1 ∧ xsh.length < w.length) ∨ (w ≠ [] ∧ 255 < xsh.length + w.length) ∨ (∃ v ∈ w, v < 0 ∨ 2^32 ≤ v) ∨
      ∃ (i m l : Nat), w[i]? = some (m : Int) ∧ xsh[i]? = some l ∧ l + 1 < m) :
    windows rank w xsh x = .err := by
  unfold windows
  by_cases c1 : rank > 1
  · rw [if_pos c1]
  rw [if_neg c1]
  by_cases c0 : w.length = 0
  · have := List.length_eq_zero_iff.1 c0
    subst this
    exfalso
    rcases h with h | ⟨_, h⟩ | ⟨h, _⟩ | ⟨v, h, _⟩ | ⟨i, m, l, h, _⟩
    · exact c1 h
    · exact absurd h (Nat.not_lt_zero _)
    · exact h rfl
    · cases h
    · cases h
  rw [if_neg c0]
  by_cases c2 : xsh.length < w.length
  · rw [if_pos c2]
  rw [if_neg c2]
  by_cases c3 : xsh.length + w.length > 255
  · rw [if_pos c3]
  rw [if_neg c3]
  cases hw : w.mapM o2s with
  | none => rfl
  | some ws =>
    dsimp only
    rcases h with h | ⟨_, h⟩ | ⟨_, h⟩ | ⟨v, hv, h⟩ | ⟨i, m, l, h1, h2, h3⟩
    · exact absurd h c1
    · exact absurd h c2
    · exact absurd h c3
    · rw [mapM_bad hv h] at hw
      cases hw
    · have bnd : ∀ (w : List Int) (ws : List Nat) (i m : Nat), w.mapM o2s = some ws → w[i]? = some (m : Int) → ws[i]? = some m ∧ m < 2^32 := by
        intro w
        induction w with
        | nil => intro ws i m _ h; cases h
        | cons v w ih =>
          intro ws i m h hi
          rw [List.mapM_cons] at h
          cases hv : o2s v with
          | none => rw [hv] at h; cases h
          | some n =>
            cases hx : w.mapM o2s with
            | none => rw [hv, hx] at h; cases h
            | some l =>
              rw [hv, hx] at h
              cases h
              cases i with
              | zero =>
                cases hi
                unfold o2s at hv
                split at hv
                · rename_i hb
                  cases hv
                  exact ⟨rfl, by omega⟩
                · cases hv
              | succ i => exact ih l i m hx hi
      obtain ⟨g1, g2⟩ := bnd w ws i m hw h1
      rw [frame_bad g1 h2 h3 g2]

example : windows 1 [5] [3] [1, 2, 3] = .err := windows_refuses (.inr (.inr (.inr (.inr ⟨0, 5, 3, rfl, rfl, by decide⟩))))
example : windows 1 [5] [3] [1, 2, 3] ≠ windows 1 [4] [3] [1, 2, 3] := by decide +kernel

/-- Results that aren't empty and would have `2⋆32` elements or more are errors. -/
theorem windows_too_large {α} {rank : Nat} {ws a b : List Nat} {x : List α} (hne : ws ≠ []) (hx : x.length = prod (a ++ b)) (hx32 : x.length < 2^32)
    (hf : Fits ws a) (ha : ∀ l ∈ a, l < 2^32 - 1) (hp : 2^32 ≤ prod (places ws a ++ ws ++ b)) :
    windows rank (ws.map Int.ofNat) (a ++ b) x = .err := by
  unfold windows
  by_cases c1 : rank > 1
  · rw [if_pos c1]
  rw [if_neg c1, List.length_map, if_neg (fun h => hne (List.length_eq_zero_iff.1 h))]
  by_cases c2 : (a ++ b).length < ws.length
  · rw [if_pos c2]
  rw [if_neg c2]
  by_cases c3 : (a ++ b).length + ws.length > 255
  · rw [if_pos c3]
  rw [if_neg c3, mapM_o2s (hf.small ha)]
  have la := hf.length
  have lp := hf.places_length
  obtain ⟨e, h1, he⟩ := frame_ok hf ha b
  dsimp only
  rw [h1]
  dsimp only
  rw [show (a ++ b).drop ws.length = b by rw [la, List.drop_left]]
  have hn0 : ∀ l ∈ places ws a ++ ws ++ b, 0 < l := fun l hl => Nat.pos_of_ne_zero fun h => by
    rw [prod_zero (h ▸ hl)] at hp
    revert hp
    decide
  have hw0 : 0 ∉ ws := fun h => absurd (hn0 0 (by simp [h])) (by decide)
  have hp0 : 0 ∉ places ws a := fun h => absurd (hn0 0 (by simp [h])) (by decide)
  have hb0 : ∀ l ∈ b, 0 < l := fun l hl => hn0 l (by simp [hl])
  have ha0 : ∀ {ws a : List Nat}, Fits ws a → 0 ∉ ws → 0 ∉ places ws a → ∀ l ∈ a, 0 < l := by
    intro ws a h
    induction h with
    | nil => intro _ _; nofun
    | @cons m l ws a hm _ ih =>
      intro h1 h2 t ht
      have h2 : 0 ∉ (l + 1 - m) :: places ws a := h2
      cases ht with
      | head =>
        have : m ≠ 0 := fun h => h1 (by simp [h])
        have : l + 1 - m ≠ 0 := fun h => h2 (by simp [h])
        omega
      | tail _ ht => exact ih (fun h => h1 (by simp [h])) (fun h => h2 (by simp [h])) t ht
  have hx0 : x.length ≠ 0 := by
    rw [hx, prod_append]
    exact Nat.ne_of_gt (Nat.mul_pos (prod_pos (ha0 hf hw0 hp0)) (prod_pos hb0))
  rw [if_neg (fun h => h.elim hx0 fun h => (he.1 h).elim hw0 hp0)]
  by_cases c4 : ws.length = 1 ∧ ws = [2] ∧ (a ++ b).length = 1
  · rw [if_pos c4]
    obtain ⟨-, rfl, hl⟩ := c4
    match a, la with
    | [n], _ =>
      have : b = [] := by
        cases b with
        | nil => rfl
        | cons => simp at hl
      subst this
      have hn : x.length = n := by rw [hx]; exact Nat.mul_one n
      have hpp : 2^32 ≤ (n + 1 - 2) * (2 * 1) := hp
      have : pairs x = .err := if_pos (by omega)
      rw [this]
  rw [if_neg c4]
  have e1 : (places ws a ++ (ws ++ b)).drop (2 * ws.length) = b := by
    rw [← List.append_assoc, show 2 * ws.length = (places ws a ++ ws).length by rw [List.length_append]; omega, List.drop_left]
  have e2 : (places ws a ++ (ws ++ b)).take (2 * ws.length) = places ws a ++ ws := by
    rw [← List.append_assoc, show 2 * ws.length = (places ws a ++ ws).length by rw [List.length_append]; omega, List.take_left]
  have hb32 : prod b ≤ x.length := by
    rw [hx, prod_append]
    exact Nat.le_mul_of_pos_left _ (prod_pos (ha0 hf hw0 hp0))
  rw [e1, mulAll_ok hb0 (by omega), Nat.one_mul]
  dsimp only
  rw [e2, mulAll_bad (by omega)]
  rw [Nat.mul_comm, ← prod_append]
  exact hp

example : windows 1 ([65536].map Int.ofNat) ([131071] ++ []) (List.replicate 131071 'a') = .err :=
  windows_too_large nofun (by rw [List.length_replicate]; rfl) (by rw [List.length_replicate]; decide) (.cons (by decide) .nil) (by decide) (by decide)

/-! ## Where the code fails -/

/-- `1↕4294967295‿0⥊0`: the window fits, and the result would be empty with the shape `4294967295‿1‿0`, but it's an error. -/
theorem long_axis_refused {α} : Fits [1] [2^32 - 1] ∧ places [1] [2^32 - 1] = [2^32 - 1] ∧ windows (α := α) 1 [1] ([2^32 - 1] ++ [0]) [] = .err :=
  ⟨.cons (by decide) .nil, by decide, by
    have h1 : ([1] : List Int).mapM o2s = some [1] := by decide
    have h2 : frame [1] ([2^32 - 1] ++ [0]) = none := by decide
    unfold windows
    rw [if_neg (by decide), if_neg (by decide), if_neg (by decide), if_neg (by decide), h1]
    dsimp only
    rw [h2]⟩

/-- `0↕4294967295‿0⥊0`: there are `2⋆32` places, but the result has 0. -/
theorem long_axis_empty {α} : places [0] [2^32 - 1] = [2^32] ∧ windows (α := α) 1 [0] ([2^32 - 1] ++ [0]) [] = .ok ([0, 0, 0], []) :=
  ⟨by decide, by
    have h1 : ([0] : List Int).mapM o2s = some [0] := by decide
    have h2 : frame [0] ([2^32 - 1] ++ [0]) = some ([0], true) := by decide
    unfold windows
    rw [if_neg (by decide), if_neg (by decide), if_neg (by decide), if_neg (by decide), h1]
    dsimp only
    rw [h2]
    rfl⟩

/-- `2↕𝕩` of a list of `2⋆31` elements is an error, although the result would have `2⋆32 - 2` elements. -/
theorem pairs_refused {α} {x : List α} (h : x.length = 2^31) : windows 1 [2] [2^31] x = .err ∧ prod (places [2] [2^31] ++ [2]) = 2^32 - 2 := by
  refine ⟨?_, by decide⟩
  have h1 : ([2] : List Int).mapM o2s = some [2] := by decide
  have h2 : frame [2] [2^31] = some ([2^31 - 1], false) := by decide
  have h3 : pairs x = .err := if_pos (by omega)
  unfold windows
  rw [if_neg (by decide), if_neg (by decide), if_neg (by decide), if_neg (by decide), h1]
  dsimp only
  rw [h2]
  dsimp only
  rw [if_neg (by rw [h]; decide), if_pos (by decide), h3]

end Verif.Windows
