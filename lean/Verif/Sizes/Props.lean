import Verif.Sizes.Lemmas
/-!
# C36: a count of elements that does not fit is not used

For each primitive below, when a result is made, its shape is the one that BQN defines and the count of elements that is allocated is the product of the shape, as natural numbers. Where
the code computes a wrong count, a theorem gives an input for it.
-/
namespace Verif.Sizes

/-- The axes of a reshape: each given length is as given, and a computed one relates to `xia` and the product `p` of the given lengths as the function says. -/
def ReshapeAxes (w : List Ax) (xia p : Nat) (sh : List Nat) : Prop :=
  sh.length = w.length ∧ ∀ i, i < w.length → match w[i]? with
    | some (.len v) => sh[i]? = some v
    | some .atop => ∃ k, sh[i]? = some k ∧ p * k = xia
    | some .floor => ∃ k, sh[i]? = some k ∧ p * k ≤ xia ∧ xia < p * (k + 1)
    | some _ => ∃ k, sh[i]? = some k ∧ xia ≤ p * k ∧ p * k < xia + p
    | none => False

/-- The product of the lengths that are given. -/
def givenProduct (w : List Ax) : Nat := (w.map fun | .len v => v | _ => 1).prod

/-- `𝕨⥊𝕩` -/
theorem reshape_exact_partial (w : List Ax) (xia ia : Nat) (sh : List Nat) (hx : xia < 2 ^ 32)
    (hfloor : Ax.floor ∈ w → givenProduct w < 2 ^ 32 ∨ xia = 0)
    (h : reshape w xia = .made ia sh) :
    ia = sh.prod ∧ ia < 2 ^ 32 ∧ ReshapeAxes w xia (givenProduct w) sh := by
  have hgp : givenProduct w = given w := by
    clear hfloor h
    unfold givenProduct
    induction w with
    | nil => rfl
    | cons a w ih => rw [List.map_cons, List.prod_cons, ih]; cases a <;> simp [given]
  rw [hgp] at hfloor ⊢
  unfold reshape at h
  cases hl : reshapeLoop xia w ⟨1, false, false, none⟩ with
  | none => rw [hl] at h; simp at h
  | some s =>
    rw [hl] at h
    have h1 := reshapeLoop_one xia w _ _ hl
    have ⟨i1, i2, i3, i4, i5, _⟩ := reshapeLoop_spec xia w _ _ hl
    simp only [Nat.one_mul] at i1 i2 i3
    have hnlt : s.nia < U := by
      rcases i2 with i2 | i2
      · exact i2
      · rw [i2]; decide
    have hmod : s.nia = given w % U := by rw [← i1, Nat.mod_eq_of_lt hnlt]
    simp only at h
    by_cases hbg : (s.bad && !s.good) = true
    · rw [if_pos hbg] at h; simp at h
    · rw [if_neg hbg] at h
      have cases0 : s.nia = given w ∨ given w = 0 ∨ (xia = 0 ∧ ∃ a ∈ w, computed a = true) ∨ Ax.floor ∈ w := by
        by_cases hb : s.bad = false
        · exact .inl ((i3 hb).2 (by decide))
        · right
          have hg : s.good = true := by
            simp only [Bool.and_eq_true, not_and, Bool.not_eq_true, Bool.not_eq_false'] at hbg
            exact hbg (by simpa using hb)
          rcases i4 hg with k | k
          · simp at k
          · exact k
      rcases i5 rfl with ⟨hu, hnc⟩ | ⟨a, hu, ha, haw, hone⟩
      · rw [hu] at h
        simp only [Sz.made.injEq] at h
        obtain ⟨h2, h3⟩ := h
        subst h2 h3
        have hp := prod_none w hnc
        refine ⟨?_, hnlt, by simp, ?_⟩
        · rw [hp]
          rcases cases0 with k | k | ⟨_, a, k, hk⟩ | k
          · exact k
          · rw [hmod, k]; rfl
          · rw [hnc a k] at hk; simp at hk
          · have := hnc _ k; simp [computed] at this
        · intro i hi
          have hc := hnc w[i] (List.getElem_mem hi)
          rw [List.getElem?_eq_getElem hi]
          cases hw : w[i] with
          | len v => simp [hi, hw, setAxis]
          | _ => rw [hw] at hc; simp [computed] at hc
      · rw [hu] at h
        simp only at h
        split at h
        · simp at h
        · rename_i hn0
          split at h
          · simp at h
          · rename_i hat
            generalize hit : (if a = .atop ∨ a = .floor then xia / s.nia else if xia % s.nia ≠ 0 then (xia / s.nia + 1) % U else xia / s.nia) = item at h
            split at h
            · simp at h
            · rename_i hov
              simp only [Sz.made.injEq] at h
              obtain ⟨h2, h3⟩ := h
              have ⟨e, lt⟩ := mulOn_ok (Bool.eq_false_iff.2 hov)
              rw [e] at h2
              subst h2 h3
              have hp := prod_one w item h1 ⟨a, haw, ha⟩
              have hgpos : 0 < given w := by
                rcases Nat.eq_zero_or_pos (given w) with h | h
                · rw [hmod, h] at hn0; simp at hn0
                · exact h
              -- the count is exact, or there are no elements
              have key : s.nia = given w ∨ (xia = 0 ∧ item = 0) := by
                have zero : xia = 0 → item = 0 := by intro hx; rw [← hit, hx]; simp
                rcases cases0 with k | k | k | k
                · exact .inl k
                · omega
                · exact .inr ⟨k.1, zero k.1⟩
                · rcases hfloor k with k | k
                  · left; rw [hmod, Nat.mod_eq_of_lt k]
                  · exact .inr ⟨k, zero k⟩
              refine ⟨?_, lt, by simp, ?_⟩
              · rw [hp]
                rcases key with k | ⟨_, k⟩
                · rw [k]
                · rw [k]; simp
              · intro i hi
                rw [List.getElem?_eq_getElem hi]
                have hwi : computed w[i] = true → w[i] = a := hone _ (List.getElem_mem hi)
                have hget : (w.map (setAxis item))[i]? = some (setAxis item w[i]) := by simp [hi]
                rw [hget]
                have hdm := Nat.div_add_mod xia s.nia
                have hml := Nat.mod_lt xia (Nat.pos_of_ne_zero hn0)
                have hmb : s.nia = 1 → xia % s.nia = 0 := by intro h; rw [h]; simp [Nat.mod_one]
                have hdl : xia / s.nia ≤ xia := Nat.div_le_self _ _
                have hdl2 : s.nia ≠ 1 → xia / s.nia + 1 < U ∨ xia % s.nia = 0 := by
                  intro hne
                  have : xia / s.nia ≤ xia / 2 := Nat.div_le_div_left (by omega) (by decide)
                  left; simp only [U]; omega
                generalize xia / s.nia = d at *
                generalize xia % s.nia = m at *
                cases hw : w[i] with
                | len v => simp [setAxis]
                | atop =>
                  have ha' : a = .atop := by rw [← hwi (by rw [hw]; rfl), hw]
                  have hm : m = 0 := by
                    rcases Nat.eq_zero_or_pos m with h | h
                    · exact h
                    · exact absurd ⟨ha', by omega⟩ hat
                  rw [if_pos (.inl ha')] at hit
                  refine ⟨_, rfl, ?_⟩
                  simp only [setAxis]
                  rcases key with k | ⟨k0, k⟩
                  · rw [← k, ← hit]; omega
                  · rw [k, k0]; simp
                | floor =>
                  have ha' : a = .floor := by rw [← hwi (by rw [hw]; rfl), hw]
                  rw [if_pos (.inr ha')] at hit
                  refine ⟨_, rfl, ?_⟩
                  simp only [setAxis]
                  rcases key with k | ⟨k0, k⟩
                  · rw [← k, ← hit, Nat.mul_add, Nat.mul_one]; omega
                  · rw [k, k0]; simp; exact hgpos
                | _ =>
                  rw [if_neg (by rw [← hwi (by rw [hw]; rfl), hw]; simp)] at hit
                  refine ⟨_, rfl, ?_⟩
                  simp only [setAxis]
                  rcases key with k | ⟨k0, k⟩
                  · rw [← k, ← hit]
                    split
                    · rename_i hm
                      have : d + 1 < U := by
                        rcases hdl2 (fun h => hm (hmb h)) with h | h
                        · exact h
                        · exact absurd h hm
                      rw [Nat.mod_eq_of_lt this, Nat.mul_add, Nat.mul_one]
                      omega
                    · omega
                  · rw [k, k0]; simp; exact hgpos

example : reshape [.len 3, .rev, .len 2] 13 = .made 18 [3, 3, 2] ∧ reshape [.len 3, .floor] 13 = .made 12 [3, 4] ∧
    reshape [.len 65536, .len 65536, .len 0] 7 = .made 0 [65536, 65536, 0] ∧ reshape [.len 65536, .len 65536] 7 = .error := by decide

/-- `65537‿65537‿⌊⥊↕131073` is given the shape `65537‿65537‿1`, of 4295098369 elements, with memory for 131073. BQN defines the last axis to have length 0. -/
theorem reshape_floor_wraps : reshape [.len 65537, .len 65537, .floor] 131073 = .made 131073 [65537, 65537, 1] ∧ [65537, 65537, 1].prod ≠ 131073 ∧ 131073 / (65537 * 65537) = 0 := by
  decide

/-- `↕𝕩` for a list -/
theorem range_exact (x : List Nat) (ia : Nat) (sh : List Nat) (hx : ∀ c ∈ x, c < 2 ^ 32) (h : range x = .made ia sh) : sh = x ∧ ia = sh.prod ∧ ia < 2 ^ 32 := by
  cases x with
  | nil => simp only [range, Sz.made.injEq] at h; simp [← h.1, ← h.2]
  | cons c x =>
    rw [range] at h
    have ⟨i1, i2, i3, i4, i5, i6, i7, i8⟩ := rangeLoop_spec x c false c c
    generalize rangeLoop x (c, false, c, c) = r at *
    obtain ⟨ria, bad, mn, mx⟩ := r
    simp only at *
    split at h
    · simp at h
    · rename_i hb
      simp only [Sz.made.injEq] at h
      obtain ⟨h1, h2⟩ := h
      subst h1 h2
      have hc : c < U := hx c (by simp)
      refine ⟨rfl, ?_, i8 hc⟩
      cases bad with
      | false => rw [List.prod_cons]; exact (i1 rfl).2 hc
      | true =>
        have hm : mn = 0 := by
          rcases Nat.eq_zero_or_pos mn with h | h
          · exact h
          · exact absurd (.inl ⟨rfl, by omega⟩) hb
        have h0 : (c :: x).prod = 0 := by
          apply prod_zero
          rcases i2 with i2 | i2
          · rw [← hm, i2]; simp
          · rw [← hm]; exact List.mem_cons_of_mem _ i2
        rw [h0]
        rw [← List.prod_cons, h0] at i7
        have := i8 hc
        simp only [U] at *
        omega

example : range [2, 3, 4] = .made 24 [2, 3, 4] ∧ range [65536, 65536] = .error ∧ range [65536, 65536, 0] = .made 0 [65536, 65536, 0] := by decide

/-- `𝕨↕𝕩`: there is one window for each place where it fits, and the windows have the lengths `𝕨`. -/
theorem windows_exact (w x : List Nat) (ia : Nat) (sh : List Nat) (hx : ∀ l ∈ x, l < 2 ^ 32 - 1) (hw : ∀ m ∈ w, m < 2 ^ 32) (hp : x.prod < 2 ^ 32) (h : windows w x = .made ia sh) :
    w.length ≤ x.length ∧ (∃ f : List Nat, sh = f ++ w ++ x.drop w.length ∧ f.length = w.length ∧ ∀ i, i < w.length → f.getD i 0 + w.getD i 0 = x.getD i 0 + 1) ∧ ia = sh.prod ∧ ia < 2 ^ 32 := by
  have he := shProd_exact hp
  unfold windows at h
  split at h
  · rename_i hw0
    simp only [Sz.made.injEq] at h
    obtain ⟨h1, h2⟩ := h
    subst h1 h2
    subst hw0
    exact ⟨by simp, ⟨[], by simp⟩, he, by rw [he]; exact hp⟩
  · split at h
    · simp at h
    · rename_i hr
      have hr : w.length ≤ x.length := by omega
      cases hl : windowLoop w x with
      | none => rw [hl] at h; simp at h
      | some r =>
        obtain ⟨f, e⟩ := r
        rw [hl] at h
        have ⟨i1, i2, i3⟩ := windowLoop_spec w x f e hl hr hx hw
        simp only at h
        have good : sh = f ++ w ++ x.drop w.length → ia = sh.prod → ia < 2 ^ 32 →
            w.length ≤ x.length ∧ (∃ f : List Nat, sh = f ++ w ++ x.drop w.length ∧ f.length = w.length ∧ ∀ i, i < w.length → f.getD i 0 + w.getD i 0 = x.getD i 0 + 1) ∧ ia = sh.prod ∧ ia < 2 ^ 32 :=
          fun a b c => ⟨hr, ⟨f, a, i1, fun i hi => (i2 i hi).2⟩, b, c⟩
        split at h
        · rename_i hem
          simp only [Sz.made.injEq] at h
          obtain ⟨h1, h2⟩ := h
          refine good h2.symm ?_ (by omega)
          rw [← h1, ← h2]
          symm
          apply prod_zero
          simp only [Bool.or_eq_true, decide_eq_true_eq] at hem
          rcases hem with hem | hem
          · rcases i3.1 hem with k | k
            · simp [k]
            · simp [k]
          · rw [he] at hem
            have hz := zero_mem hem
            rw [← List.take_append_drop w.length x] at hz
            rcases List.mem_append.1 hz with hz | hz
            · obtain ⟨i, hi, hz⟩ := List.getElem_of_mem hz
              have hi' : i < w.length := by simp at hi; omega
              have hix : i < x.length := by omega
              have hxi : x.getD i 0 = 0 := by
                rw [List.getElem_take] at hz
                rw [List.getD_eq_getElem?_getD, List.getElem?_eq_getElem hix]
                simpa using hz
              have := i2 i hi'
              rw [hxi] at this
              have hd : ∀ (l : List Nat), i < l.length → l.getD i 0 ∈ l := by
                intro l hl
                rw [List.getD_eq_getElem?_getD, List.getElem?_eq_getElem hl]
                exact List.getElem_mem hl
              have hw0 : w.getD i 0 = 0 ∨ f.getD i 0 = 0 := by omega
              rcases hw0 with k | k
              · have := hd w hi'; rw [k] at this; simp [this]
              · have := hd f (by omega); rw [k] at this; simp [this]
            · simp [hz]
        · rename_i hem
          split at h
          · rename_i h2
            obtain ⟨hw2, hx1⟩ := h2
            split at h
            · simp at h
            · rename_i hov
              have ⟨e1, lt⟩ := mulOn_ok (Bool.eq_false_iff.2 hov)
              simp only [Sz.made.injEq] at h
              obtain ⟨h1, h2⟩ := h
              obtain ⟨l, rfl⟩ := List.length_eq_one_iff.1 hx1
              subst hw2
              obtain ⟨g, rfl⟩ := List.length_eq_one_iff.1 i1
              rw [e1, he] at h1
              rw [he] at lt
              have := i2 0 (by simp)
              simp at this h1 lt
              refine good (by simp [← h2]) ?_ ?_
              · rw [← h1, ← h2]
                simp
                omega
              · simp only [U] at lt; omega
          · cases hm : (mulAll (x.drop w.length) 1).bind (mulAll (f ++ w)) with
            | none => rw [hm] at h; simp at h
            | some ria =>
              rw [hm] at h
              simp only [Sz.made.injEq] at h
              obtain ⟨h1, h2⟩ := h
              obtain ⟨p, hp1, hp2⟩ := Option.bind_eq_some_iff.1 hm
              have ⟨a1, a2⟩ := mulAll_spec _ _ _ hp1 (by decide)
              have ⟨b1, b2⟩ := mulAll_spec _ _ _ hp2 a2
              refine good h2.symm ?_ (by rw [← h1]; exact b2)
              rw [← h1, ← h2, b1, a1, List.prod_append (l₁ := f ++ w)]
              rw [Nat.one_mul, Nat.mul_comm]

example : windows [3] [5, 2] = .made 18 [3, 3, 2] ∧ windows [2] [5] = .made 8 [4, 2] ∧ windows [65536] [131072] = .error ∧ windows [4] [3, 2] = .made 0 [0, 4, 2] ∧ windows [5] [3, 2] = .error := by decide

/-- `𝕨F⌜𝕩`: accepted exactly if the number of elements and the rank fit. -/
theorem table_exact (w x : List Nat) (hw : w.prod < 2 ^ 32) (hx : x.prod < 2 ^ 32) (hwr : w.length < 256) (hxr : x.length < 256) :
    table w x = if (w ++ x).prod < 2 ^ 32 ∧ (w ++ x).length < 256 then .made (w ++ x).prod (w ++ x) else .error := by
  unfold table
  rw [shProd_exact hw, shProd_exact hx, List.prod_append, List.length_append]
  by_cases hm : U ≤ w.prod * x.prod
  · rw [if_pos (by simpa [mulOn] using hm), if_neg (by simp only [U] at hm; omega)]
  · rw [if_neg (by simpa [mulOn] using hm)]
    by_cases hr : (w.length + x.length) % 256 < x.length
    · rw [if_pos hr, if_neg (by omega)]
    · rw [if_neg hr, if_pos (by simp only [U] at hm; omega)]
      simp only [mulOn]
      rw [Nat.mod_eq_of_lt (by omega)]

example : table [2, 3] [4] = .made 24 [2, 3, 4] ∧ table [65536] [65536] = .error := by decide

/-- `>𝕩`: accepted exactly if the number of elements and the rank fit. -/
theorem merge_exact (w x : List Nat) (hw : w.prod < 2 ^ 32) (hx : x.prod < 2 ^ 32) (hwr : w.length < 256) :
    merge w x = if (w ++ x).prod < 2 ^ 32 ∧ (w ++ x).length < 256 then .made (w ++ x).prod (w ++ x) else .error := by
  unfold merge
  simp only
  rw [shProd_exact hw, shProd_exact hx, List.prod_append, List.length_append]
  by_cases h0 : x = []
  · rw [if_pos h0, h0]
    simp
    omega
  · rw [if_neg h0]
    by_cases hr : 255 < w.length + x.length
    · rw [if_pos hr, if_neg (by omega)]
    · rw [if_neg hr]
      by_cases hm : U ≤ w.prod * x.prod
      · rw [if_pos (by simpa [mulOn] using hm), if_neg (by simp only [U] at hm; omega)]
      · rw [if_neg (by simpa [mulOn] using hm), if_pos (by simp only [U] at hm; omega)]
        simp only [mulOn]
        rw [Nat.mod_eq_of_lt (by omega)]

example : merge [2, 3] [4] = .made 24 [2, 3, 4] ∧ merge [65536] [65536] = .error := by decide

/-- `𝕨↑𝕩` for a number `𝕨` of magnitude `n`, when the cells of `𝕩` have a size that fits -/
theorem take_exact_partial (n l ia : Nat) (cell sh : List Nat) (hc : cell.prod < 2 ^ 32) (h0 : cell.prod ≠ 0 ∨ n < 2 ^ 32) (h : take n l cell = .made ia sh) :
    sh = n :: cell ∧ ia = sh.prod ∧ ia < 2 ^ 32 := by
  unfold take at h
  rw [shProd_exact hc] at h
  have hcsz : (if cell = [] then 1 else cell.prod) = cell.prod := by
    split
    · rename_i h; rw [h]; rfl
    · rfl
  rw [hcsz] at h
  simp only at h
  split at h
  · simp at h
  · rename_i hlt
    simp only [Sz.made.injEq] at h
    obtain ⟨h1, h2⟩ := h
    have hn : n < U := by
      rcases h0 with h0 | h0
      · have := Nat.le_mul_of_pos_right n (Nat.pos_of_ne_zero h0)
        omega
      · exact h0
    have : sh = n :: cell := by
      rw [← h2]
      split
      · rename_i h; rw [h]
      · rw [Nat.mod_eq_of_lt hn]
    rw [this, List.prod_cons]
    exact ⟨rfl, h1.symm, by rw [← h1]; simp only [U] at hlt; omega⟩

example : take 5 2 [3] = .made 15 [5, 3] ∧ take 65536 2 [65536] = .error := by decide

/-- `2↑0‿65536‿65536⥊0` is given the shape `2‿65536‿65536`, with memory for no element; `(2⋆33)↑3‿0⥊0` is given the shape `0‿0`. -/
theorem take_empty_wraps : reshape [.len 0, .len 65536, .len 65536] 1 = .made 0 [0, 65536, 65536] ∧ take 2 0 [65536, 65536] = .made 0 [2, 65536, 65536] ∧
    take (2 ^ 33) 3 [0] = .made 0 [0, 0] := by decide

/-- `𝕨↓𝕩` for a number `𝕨` of magnitude `n` -/
theorem drop_exact (n l ia : Nat) (cell sh : List Nat) (hp : (l :: cell).prod < 2 ^ 32) (h : drop n l cell = .made ia sh) :
    sh = (l - n) :: cell ∧ ia = sh.prod ∧ ia < 2 ^ 32 := by
  unfold drop at h
  rw [shProd_exact hp] at h
  simp only at h
  by_cases hb : 2 ^ 63 ≤ n * (if cell = [] then 1 else shProd cell)
  · rw [if_pos hb] at h; simp at h
  · rw [if_neg hb] at h
    simp only [Sz.made.injEq] at h
    obtain ⟨h1, h2⟩ := h
    have hax : (if l ≤ n then 0 else l - n) = l - n := by split <;> omega
    rw [List.prod_cons] at hp h1
    by_cases hc : cell = []
    · subst hc
      simp at h1 h2 hp
      have : ia = l - n := by rw [← h1]; split <;> omega
      rw [← h2]
      have h3 : (if l ≤ n then 0 else l - n) = l - n := hax
      simp
      omega
    · rw [if_neg hc] at h1 h2
      rw [hax] at h2
      rw [← h2, List.prod_cons]
      by_cases hl : l = 0
      · subst hl
        simp at h1
        simp [← h1]
      · have hcp : cell.prod < U := by
          have := Nat.le_mul_of_pos_left cell.prod (Nat.pos_of_ne_zero hl)
          simp only [U]; omega
        rw [shProd_exact hcp] at h1
        have hsub : (l - n) * cell.prod = l * cell.prod - n * cell.prod := Nat.sub_mul _ _ _
        refine ⟨rfl, ?_, ?_⟩
        · rw [hsub, ← h1]; split <;> omega
        · rw [← h1]; split <;> omega

example : drop 2 5 [3] = .made 9 [3, 3] ∧ drop 7 5 [3] = .made 0 [0, 3] := by decide

/-- The shape that taking or dropping along several axes gives: `w` is the magnitudes in `𝕨`; axes of length 1 are put before those of `𝕩` when there are more numbers in `𝕨` than axes. -/
def takeDropShape (isTake : Bool) (w x : List Nat) : List Nat :=
  let xp := List.replicate (w.length - x.length) 1 ++ x
  List.zipWith (fun n l => if isTake then n else l - n) w xp ++ xp.drop w.length

/-- `𝕨↑𝕩` and `𝕨↓𝕩` for a list `𝕨` -/
theorem takedrop_exact_partial (t : Bool) (w x : List Nat) (ia : Nat) (sh : List Nat) (hx : ∀ l ∈ x, l < 2 ^ 32) (hw : ∀ n ∈ w, t = true → n < 2 ^ 32 ∨ 0 ∉ takeDropShape t w x)
    (h : takedrop t w x = .made ia sh) : sh = takeDropShape t w x ∧ ia = sh.prod ∧ ia < 2 ^ 32 := by
  unfold takedrop at h
  have hrr : (if x.length > w.length then x.length else w.length) - x.length = w.length - x.length := by split <;> omega
  have hrr2 : (if x.length > w.length then x.length else w.length) - w.length = x.length - w.length := by split <;> omega
  simp only at h
  rw [hrr, hrr2] at h
  have hxp : ∀ l ∈ List.replicate (w.length - x.length) 1 ++ x, l < 2 ^ 32 := by
    intro l hl
    rcases List.mem_append.1 hl with hl | hl
    · rw [List.eq_of_mem_replicate hl]; decide
    · exact hx l hl
  have hlen : (List.replicate (w.length - x.length) 1 ++ x).length = w.length + (x.length - w.length) := by simp; omega
  have hS : takeDropShape t w x = List.zipWith (fun n l => if t then n else l - n) w (List.replicate (w.length - x.length) 1 ++ x) ++ (List.replicate (w.length - x.length) 1 ++ x).drop w.length := rfl
  generalize List.replicate (w.length - x.length) 1 ++ x = xp at *
  have hax : tdAxes t (w ++ if t = true then xp.drop w.length else List.replicate (x.length - w.length) 0) xp = takeDropShape t w x := by
    rw [hS]
    clear hw h hS hx hxp hrr hrr2
    generalize x.length - w.length = k at *
    induction w generalizing xp with
    | nil =>
      simp only [List.length_nil, List.drop_zero, List.nil_append, List.zipWith_nil_left] at *
      have : k = xp.length := by omega
      subst this
      clear hlen
      induction xp with
      | nil => cases t <;> rfl
      | cons l xp ih =>
        cases t
        · simp only [Bool.false_eq_true, if_false] at *
          rw [List.length_cons, List.replicate_succ, tdAxes, ih]
          simp
        · simp only [if_true] at *
          rw [tdAxes, ih]
          simp
    | cons n w ih =>
      cases xp with
      | nil => simp at hlen; omega
      | cons l xp =>
        have := ih xp (by simp at hlen; omega)
        rw [List.cons_append, tdAxes]
        simp only [List.length_cons, List.drop_succ_cons, List.zipWith_cons_cons, List.cons_append] at *
        rw [this]
  have hwl : (w ++ if t = true then xp.drop w.length else List.replicate (x.length - w.length) 0).length = xp.length := by
    cases t <;> simp [hlen]
  have ⟨i1, i2, i3, i4, i5⟩ := tdLoop_spec t _ xp 1 false false hwl
  generalize tdLoop t _ xp (1, false, false) = r at *
  rw [hax] at i1 i2 i3 i4
  clear hax
  obtain ⟨⟨ria, bad, good⟩, rsh⟩ := r
  simp only at *
  have lt := i5 (by decide)
  by_cases hbg : (bad && !good) = true
  · rw [if_pos hbg] at h; simp at h
  · rw [if_neg hbg] at h
    split at h
    · simp at h
    · simp only [Sz.made.injEq] at h
      obtain ⟨h1, h2⟩ := h
      subst h1 h2
      have hprod : ria = (takeDropShape t w x).prod ∧ ((takeDropShape t w x).prod ≠ 0 → ria < U) := by
        cases bad with
        | false =>
          have := ((i2 rfl).2 (by decide)).1
          rw [Nat.one_mul] at this
          exact ⟨this, fun _ => lt⟩
        | true =>
          have hg : good = true := by cases good <;> simp at hbg ⊢
          have hz : 0 ∈ takeDropShape t w x := by
            rcases i3.1 hg with h | h
            · simp at h
            · exact h
          have := prod_zero hz
          rw [this] at i4 ⊢
          simp only [U] at i4 lt
          exact ⟨by omega, fun h => absurd rfl h⟩
      have hsm : ∀ c ∈ takeDropShape t w x, c < U := by
        by_cases hz : 0 ∈ takeDropShape t w x
        · intro c hc
          rw [hS] at hc
          rcases List.mem_append.1 hc with hc | hc
          · obtain ⟨i, hi, hc⟩ := List.getElem_of_mem hc
            rw [List.getElem_zipWith] at hc
            have hi2 : i < w.length ∧ i < xp.length := by rw [List.length_zipWith] at hi; omega
            cases t
            · simp at hc
              have := hxp _ (List.getElem_mem hi2.2)
              simp only [U]; omega
            · simp at hc
              rcases hw _ (List.getElem_mem hi2.1) rfl with k | k
              · rw [← hc]; exact k
              · exact absurd hz k
          · exact hxp c (List.mem_of_mem_drop hc)
        · intro c hc
          have hp0 : (takeDropShape t w x).prod ≠ 0 := fun h => hz (zero_mem h)
          have := hprod.2 hp0
          rw [hprod.1] at this
          have hle : ∀ (l : List Nat), l.prod ≠ 0 → ∀ c ∈ l, c ≤ l.prod := by
            intro l
            induction l with
            | nil => simp
            | cons a l ih =>
              intro hp c hc
              rw [List.prod_cons] at hp ⊢
              have ⟨ha, hl⟩ := Nat.mul_ne_zero_iff.1 hp
              rcases List.mem_cons.1 hc with hc | hc
              · rw [hc]; exact Nat.le_mul_of_pos_right _ (Nat.pos_of_ne_zero hl)
              · exact Nat.le_trans (ih hl c hc) (Nat.le_mul_of_pos_left _ (Nat.pos_of_ne_zero ha))
          have := hle _ hp0 c hc
          omega
      have hmap : (takeDropShape t w x).map (· % U) = takeDropShape t w x := by
        conv => rhs; rw [← List.map_id (takeDropShape t w x)]
        apply List.map_congr_left
        intro c hc
        exact Nat.mod_eq_of_lt (hsm c hc)
      rw [i1, hmap]
      exact ⟨rfl, hprod.1, lt⟩

example : takedrop true [3, 2] [5, 4, 6] = .made 36 [3, 2, 6] ∧ takedrop false [1, 2] [7] = .made 0 [0, 5] ∧ takedrop false [3, 1] [5, 4] = .made 6 [2, 3] ∧ takedrop true [65536, 65536] [2] = .error := by
  decide

/-- `0‿(2⋆32)↑𝕩` is given the shape `0‿0`. -/
theorem take_axis_wraps : takedrop true [0, 2 ^ 32] [2, 2] = .made 0 [0, 0] := by decide

/-- `𝕨≍𝕩`, when the result fits -/
theorem couple_exact_partial (x : List Nat) (ia : Nat) (sh : List Nat) (hx : 2 * x.prod < 2 ^ 32) (h : couple x = .made ia sh) : sh = 2 :: x ∧ ia = sh.prod := by
  unfold couple at h
  split at h
  · simp at h
  · simp only [Sz.made.injEq] at h
    obtain ⟨h1, h2⟩ := h
    rw [← h1, ← h2, List.prod_cons, shProd_exact (by simp only [U]; omega), Nat.mod_eq_of_lt (by simp only [U]; omega)]
    exact ⟨rfl, Nat.mul_comm _ _⟩

example : couple [3, 2] = .made 12 [2, 3, 2] := by decide

/-- `≍˜2147483648⥊0` allocates no element for a result of 4294967296. -/
theorem couple_wraps : couple [2 ^ 31] = .made 0 [2, 2 ^ 31] := by decide

/-- `∾𝕩` for a list whose items have the given shapes: the result is either an error, or each item is a cell of one shape `t` or a list of such cells, one is a list, and the length is the
number of cells, when this number and that of all elements fit. -/
theorem join_list_exact_partial (x0 : List Nat) (x : List (List Nat)) (hn : x.length + 1 < 2 ^ 32) (hl : ∀ c ∈ x0 :: x, ∀ l ∈ c, l < 2 ^ 32) (hr : ∀ c ∈ x0 :: x, c.length < 256)
    (h255 : x0 = [] → ∀ c ∈ x, c.length ≠ 255) :
    joinList (x0 :: x) = .error ∨ ∃ t n, Joins (x0 :: x) t n ∧ ((n :: t).prod < 2 ^ 32 → n < 2 ^ 32 → t.prod < 2 ^ 32 → joinList (x0 :: x) = .made (n :: t).prod (n :: t)) := by
  have hinit : ∃ n, Jinv x0 [] (if x0.length = 0 then ⟨0, 1, 0, none, 0, 1⟩ else ⟨x0.length, x0.length, 0, some (x0.drop 1), x0.headD 0, x0.headD 0⟩) n := by
    by_cases h0 : x0.length = 0
    · rw [if_pos h0]
      have : x0 = [] := List.length_eq_zero_iff.1 h0
      exact ⟨1, show (1 : Nat) < U by decide, show (1 : Nat) = 1 % U by decide, fun _ => ⟨rfl, rfl, rfl, by simp [this], by simp⟩, fun h => absurd rfl h⟩
    · rw [if_neg h0]
      cases hx : x0 with
      | nil => rw [hx] at h0; simp at h0
      | cons a e =>
        have ha : a < U := hl x0 (by simp) a (by rw [hx]; simp)
        refine ⟨a, by simpa using ha, by simp; rw [Nat.mod_eq_of_lt ha], fun h => by simp at h, fun _ => ⟨rfl, by simp, by simp, ⟨?_, ⟨a :: e, by simp⟩, ?_⟩, fun _ => ⟨by simp, by simp, by simp⟩⟩⟩
        · intro c hc
          right; simp at hc; exact ⟨a, by simp [hc]⟩
        · simp [cons_ne]
  obtain ⟨n, hI⟩ := hinit
  have hres := joinLoop_spec x0 x 1 [] _ n hI (by simp) (by simp only [U]; omega)
    (by split
        · simp
        · exact hr x0 (by simp))
    (fun c hc => hr c (List.mem_cons_of_mem _ hc))
    (by intro h0
        have : x0 = [] := by
          split at h0
          · exact List.length_eq_zero_iff.1 (by assumption)
          · exact List.length_eq_zero_iff.1 h0
        exact h255 this)
  rw [joinList]
  simp only
  rcases hres with ⟨r, n', he, hJ⟩ | he
  · rw [he]
    simp only
    by_cases hz : r.rm = 0
    · rw [if_pos hz]; exact .inl rfl
    · rw [if_neg hz]
      right
      have ⟨k1, k2, k3, k4, k5⟩ := hJ.arrs hz
      refine ⟨r.esh.getD [], n', by simpa using k4, fun h1 h2 h3 => ?_⟩
      have hcam : r.cam = n' := by rw [hJ.cam, Nat.mod_eq_of_lt h2]
      rw [List.take_of_length_le (by omega), hcam, shProd_exact h3, List.prod_cons]
      rw [List.prod_cons] at h1
      rw [Nat.mod_eq_of_lt h1]
  · rw [he]; exact .inl rfl

example : joinList [[2, 3], [3], [4, 3]] = .made 21 [7, 3] ∧ joinList [[3], [3], [4, 3]] = .made 18 [6, 3] ∧ joinList [[], [5], []] = .made 7 [7] ∧ joinList [[3], [2, 4]] = .error ∧
    joinList [[3], [2], [1, 3]] = .error := by decide

/-- `∾⟨a,a⟩` for `a←65536‿32768⥊0` allocates no element for a result of 2⋆32. -/
theorem join_list_wraps : joinList [[65536, 32768], [65536, 32768]] = .made 0 [131072, 32768] := by decide

/-- `∾65536⥊<65536⥊0` allocates no element, and the 65536 items of 65536 elements each are then copied. -/
theorem join_many_wraps : joinList (List.replicate 65536 [65536]) = .made 0 [0] := by
  have step : ∀ k i seen s, s.rm = 1 → s.rr = 1 → s.rd = 0 → s.esh = some [] →
      joinLoop (List.replicate k [65536]) i seen s = .ok { s with cam := if k = 0 then s.cam else (s.cam + k * 65536) % U } := by
    intro k
    induction k with
    | zero => intro i seen s _ _ _ _; rfl
    | succ k ih =>
      intro i seen s h1 h2 h3 h4
      rw [List.replicate_succ, joinLoop]
      simp only [List.length_singleton]
      rw [if_neg (by decide), h1, h3, if_neg (by decide)]
      simp only [h1, h4]
      rw [if_pos (by decide), ih (i + 1) _ { s with rm := 1, esh := some [], cam := _ } rfl h2 h3 rfl]
      simp only [h3]
      rw [if_neg (Nat.succ_ne_zero k)]
      congr 2
      simp only [List.headD_cons]
      rw [if_neg (by decide : ¬ (1 : Nat) < 1)]
      split
      · rename_i h; rw [h]
      · simp only [U]; omega
  rw [show List.replicate 65536 [65536] = [65536] :: List.replicate 65535 [65536] from List.replicate_succ]
  rw [joinList]
  simp only [List.length_singleton]
  rw [if_neg (by decide), step 65535 1 [] _ rfl rfl rfl rfl]
  rfl

/-- `∾⟨0,(255⥊1)⥊0⟩`: the ranks 0 and 255 differ by one in 8 bits, and the memory before the null pointer is read. -/
theorem join_rank_wraps : joinList [[], List.replicate 255 1] = .outside := by decide +kernel

/-- `∾𝕩` for an array of two or more axes, where `lens` is the lengths along each axis: when the frame fits, the result is exact or an error. -/
theorem join_array_exact_partial (lens : List (List Nat)) (csh : List Nat) (ia : Nat) (sh : List Nat) (hs : ∀ l ∈ lens, l.sum < 2 ^ 32) (hp : (lens.map List.sum).prod < 2 ^ 32)
    (hc : csh.prod < 2 ^ 32) (h : joinArray lens csh = .made ia sh) : sh = lens.map List.sum ++ csh ∧ ia = sh.prod ∧ ia < 2 ^ 32 := by
  have hst : (lens.map fun ll => ll.foldl (fun r l => (r + l) % U) 0) = lens.map List.sum := by
    apply List.map_congr_left
    intro l hl
    have := foldl_add_mod l 0
    rw [Nat.zero_mod, Nat.zero_add, Nat.mod_eq_of_lt (hs l hl)] at this
    exact this
  unfold joinArray at h
  simp only at h
  rw [hst, shProd_exact hp, shProd_exact hc] at h
  split at h
  · simp at h
  · rename_i hov
    have ⟨e, lt⟩ := mulOn_ok (Bool.eq_false_iff.2 hov)
    simp only [Sz.made.injEq] at h
    obtain ⟨h1, h2⟩ := h
    rw [← h1, ← h2, e, List.prod_append]
    exact ⟨rfl, rfl, lt⟩

example : joinArray [[2, 3], [1, 4, 2]] [2] = .made 70 [5, 7, 2] := by decide

/-- `∾256‿256⥊<256‿256⥊0` is given the shape `65536‿65536` with memory for no element. -/
theorem join_array_wraps : joinArray [List.replicate 256 256, List.replicate 256 256] [] = .made 0 [65536, 65536] := by decide +kernel

end Verif.Sizes
