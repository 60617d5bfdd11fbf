import Verif.GroupRt.Lemmas
/-
C84: lengths and order of groups, as given to the runtime.
-/
namespace Verif.GroupRt

/-- The length of each group is the number of indices equal to its own, and there are as few groups as are enough;
    for fewer than 2^31 indices and group numbers below 2^32-66. -/
theorem lengths_counted (asked : Int) (x : List Int) (hx : x.length < 2^31) (hv : ∀ v ∈ x, -1 ≤ v ∧ v < 2^32 - 66)
    (ha : asked < 2^32 - 65) :
    ∃ r, grLen asked x = .val r ∧ Enough asked x r.length ∧ (∀ n, Enough asked x n → r.length ≤ n) ∧
      ∀ k (h : k < r.length), r[k] = occurrences k x := by
  by_cases hx0 : x = []
  · subst hx0
    refine ⟨_, rfl, ⟨?_, nofun⟩, ?_, ?_⟩
    · rw [List.length_replicate]
      split
      · omega
      · rw [Nat.mod_eq_of_lt (by omega)]; omega
    · intro n hn
      have := hn.1
      rw [List.length_replicate]
      split
      · omega
      · rw [Nat.mod_eq_of_lt (by omega)]; omega
    · intro k h
      rw [List.getElem_replicate]; rfl
  · obtain ⟨m1, m2⟩ := maxOf_ge x (-1)
    have m3 : maxOf (-1) x < 2^32 - 66 := by
      rcases maxOf_mem x (-1) with h | h
      · omega
      · exact (hv _ h).2
    have m4 : ∀ n : Nat, (∀ v ∈ x, v < n) → maxOf (-1) x < n := by
      intro n hn
      rcases maxOf_mem x (-1) with h | h
      · omega
      · exact hn _ h
    simp only [grLen]
    rw [if_neg hx0, if_neg (by omega)]
    generalize hria : (if maxOf (-1) x > asked - 1 then 1 + maxOf (-1) x else asked) = ria
    have r1 : 0 ≤ ria ∧ maxOf (-1) x < ria ∧ asked ≤ ria ∧ ria ≤ 2^32 - 66 ∧ (ria = asked ∨ ria = 1 + maxOf (-1) x) := by
      split at hria <;> omega
    obtain ⟨r1, r2, r3, r4, r5⟩ := r1
    rw [if_neg (by omega)]
    have en : ∀ l : Nat, l = ria.toNat → Enough asked x l ∧ ∀ n, Enough asked x n → l ≤ n := by
      intro l hl
      subst hl
      refine ⟨⟨by omega, fun v h => ?_⟩, ?_⟩
      · have := m2 v h
        omega
      · intro n hn
        have a := hn.1
        have b := m4 n hn.2
        rcases r5 with h | h <;> omega
    have hb : ∀ v ∈ x, -1 ≤ v ∧ v < ((List.replicate ria.toNat false).length : Nat) := by
      intro v h
      have := m2 v h
      rw [List.length_replicate]
      exact ⟨(hv v h).1, by omega⟩
    rcases bits_spec x _ hb with h | ⟨rp, h, hl, hk⟩
    · rw [h]
      dsimp only
      obtain ⟨rp, h', hl, hk⟩ := counts_spec x (List.replicate ria.toNat 0)
        (by rw [List.length_replicate]; rw [List.length_replicate] at hb; exact hb)
        (by
          intro k
          have := occ_le k x
          have e : (List.replicate ria.toNat 0).getD k 0 = 0 := by
            rw [List.getD_eq_getElem?_getD, List.getElem?_replicate]; split <;> rfl
          omega)
      rw [h']
      dsimp only
      rw [List.length_replicate] at hl
      obtain ⟨e1, e2⟩ := en rp.length hl
      refine ⟨rp, rfl, e1, e2, ?_⟩
      intro k hk'
      have := hk k
      rw [List.getD_eq_getElem?_getD, List.getElem?_eq_getElem hk', List.getD_eq_getElem?_getD,
        List.getElem?_replicate, if_pos (by omega)] at this
      simpa using this
    · rw [h]
      dsimp only
      rw [List.length_replicate] at hl
      obtain ⟨e1, e2⟩ := en (rp.map fun b => if b then 1 else 0).length (by rw [List.length_map, hl])
      refine ⟨_, rfl, e1, e2, ?_⟩
      intro k hk'
      rw [List.length_map] at hk'
      have := hk k
      rw [List.getD_eq_getElem?_getD, List.getElem?_eq_getElem hk', List.getD_eq_getElem?_getD,
        List.getElem?_replicate, if_pos (by omega)] at this
      rw [List.getElem_map]
      revert this
      cases rp[k] <;> simp <;> omega

/-- With the lengths of the groups, the order lists every index but those that are ¯1 once, at its place: groups follow
    each other and keep the order within.  Whatever the memory contained. -/
theorem order_placed (junk : Nat → Nat) (w : List Nat) (x : List Int) (hx : x.length < 2^31 - 1)
    (hv : ∀ v ∈ x, v < w.length) (hw : ∀ k (h : k < w.length), w[k] = occurrences k x) :
    ∃ r, grOrd junk w x = .val r ∧ r.length = earlier w.length x ∧
      ∀ (i : Nat) v, x[i]? = some v → 0 ≤ v → r[place x i v]? = some i := by
  unfold grOrd
  by_cases h0 : w = []
  · subst h0
    rw [if_pos rfl]
    refine ⟨[], rfl, (earlier_zero x).symm, ?_⟩
    intro i v hi h
    have := hv v (List.mem_of_getElem? hi)
    simp at this
    omega
  · rw [if_neg h0]
    by_cases h1 : x = []
    · subst h1
      rw [if_pos rfl]
      exact ⟨[], rfl, rfl, fun i v hi => nomatch hi⟩
    · rw [if_neg h1, if_neg (by omega)]
      have hs := sum_take w x hw
      have hsum : w.sum = earlier w.length x := by
        have := hs w.length (Nat.le_refl _)
        rwa [List.take_length] at this
      have hle := earlier_le w.length x
      obtain ⟨s1, s2, s3⟩ := sums_spec w 0 (by omega)
      obtain ⟨r, a, b, c⟩ := fill_spec x w.length hv hx x [] (sums 0 w) ((List.range (total 0 w)).map junk) rfl s1
        (by rw [List.length_map, List.length_range, s2, Nat.zero_add, hsum])
        (by
          intro k hk
          rw [s3 k hk, Nat.zero_add, hs k (by omega), occ_nil]
          rfl)
        (fun i v hi => absurd hi (Nat.not_lt_zero i))
      have a : fill 0 (sums 0 w) ((List.range (total 0 w)).map junk) x = some r := a
      rw [a]
      exact ⟨r, rfl, b, c⟩

/-- No place is taken twice, and places lie within the result. -/
theorem places_distinct (x : List Int) (n : Nat) (hn : ∀ v ∈ x, v < n) (i j : Nat) (v u : Int) (hi : x[i]? = some v)
    (hj : x[j]? = some u) (hv : 0 ≤ v) (hu : 0 ≤ u) :
    (place x i v = place x j u → i = j) ∧ place x i v < earlier n x :=
  ⟨place_inj x i j v u hi hj hv hu,
   Nat.lt_of_lt_of_le (place_lt x i v hi hv) (earlier_mono _ _ (by have := hn v (List.mem_of_getElem? hi); omega) x)⟩

/-- One after the other: the lengths are what the order needs. -/
theorem group_order (junk : Nat → Nat) (asked : Int) (x : List Int) (hx : x.length < 2^31 - 1)
    (hv : ∀ v ∈ x, -1 ≤ v ∧ v < 2^32 - 66) (ha : asked < 2^32 - 65) :
    ∃ w r, grLen asked x = .val w ∧ grOrd junk w x = .val r ∧ r.length = earlier w.length x ∧
      ∀ (i : Nat) v, x[i]? = some v → 0 ≤ v → r[place x i v]? = some i := by
  obtain ⟨w, h1, h2, _, h4⟩ := lengths_counted asked x (by omega) hv ha
  obtain ⟨r, h5, h6⟩ := order_placed junk w x hx h2.2 h4
  exact ⟨w, r, h1, h5, h6⟩

/-- Without indices, the number of groups asked for is reduced modulo 2^32. -/
theorem length_wraps : grLen (2^32) [] = .val [] := by
  simp [grLen]

/-- `lengths_counted`: once with bits, once with numbers. -/
example : grLen 0 [2, -1, 0] = .val [1, 0, 1] ∧ grLen 5 [2, 0, -1, 2, 1] = .val [1, 1, 2, 0, 0] := by decide

/-- `order_placed`, `group_order`. -/
example : grOrd (fun _ => 77) [1, 1, 2, 0, 0] [2, 0, -1, 2, 1] = .val [1, 4, 0, 3] := by decide

/-- `places_distinct`. -/
example : place [2, 0, -1, 2, 1] 3 2 = 3 ∧ place [2, 0, -1, 2, 1] 0 2 = 2 := by decide

end Verif.GroupRt
