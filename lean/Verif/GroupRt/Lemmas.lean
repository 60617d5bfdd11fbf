import Verif.GroupRt.Model
namespace Verif.GroupRt

theorem occ_nil (k : Int) : occurrences k [] = 0 := rfl

theorem occ_cons (k v : Int) (x : List Int) : occurrences k (v :: x) = (if v = k then 1 else 0) + occurrences k x := by
  unfold occurrences
  by_cases h : v = k <;> simp [h] <;> omega

theorem occ_append (k : Int) (x y : List Int) : occurrences k (x ++ y) = occurrences k x + occurrences k y := by
  unfold occurrences
  rw [List.filter_append, List.length_append]

theorem occ_le (k : Int) (x : List Int) : occurrences k x ≤ x.length := List.length_filter_le _ _

theorem earlier_le (k : Int) (x : List Int) : earlier k x ≤ x.length := List.length_filter_le _ _

theorem earlier_cons (k v : Int) (x : List Int) :
    earlier k (v :: x) = (if 0 ≤ v ∧ v < k then 1 else 0) + earlier k x := by
  unfold earlier
  by_cases h : 0 ≤ v ∧ v < k <;> simp [h] <;> omega

theorem earlier_zero (x : List Int) : earlier 0 x = 0 := by
  induction x with
  | nil => rfl
  | cons v x ih => rw [earlier_cons, ih, if_neg (by omega)]

theorem earlier_succ (k : Int) (hk : 0 ≤ k) (x : List Int) : earlier (k + 1) x = earlier k x + occurrences k x := by
  induction x with
  | nil => rfl
  | cons v x ih =>
    rw [earlier_cons, earlier_cons, occ_cons, ih]
    split <;> split <;> split <;> omega

theorem earlier_mono (k l : Int) (h : k ≤ l) (x : List Int) : earlier k x ≤ earlier l x := by
  induction x with
  | nil => exact Nat.le_refl _
  | cons v x ih =>
    rw [earlier_cons, earlier_cons]
    split <;> split <;> omega

theorem occ_take_succ (x : List Int) (i : Nat) (v : Int) (h : x[i]? = some v) :
    occurrences v (x.take (i + 1)) = occurrences v (x.take i) + 1 := by
  rw [List.take_succ, h, occ_append]
  simp [occ_cons, occ_nil]

theorem occ_take_le (x : List Int) (i j : Nat) (hij : i ≤ j) (v : Int) :
    occurrences v (x.take i) ≤ occurrences v (x.take j) := by
  have : x.take j = x.take i ++ (x.drop i).take (j - i) := by
    rw [← List.take_add]; congr 1; omega
  rw [this, occ_append]
  omega

theorem place_lt (x : List Int) (i : Nat) (v : Int) (h : x[i]? = some v) (hv : 0 ≤ v) :
    place x i v < earlier (v + 1) x := by
  unfold place
  rw [earlier_succ v hv]
  have h1 := occ_take_succ x i v h
  have h2 := occ_take_le x (i + 1) (max (i + 1) x.length) (Nat.le_max_left _ _) v
  rw [List.take_of_length_le (Nat.le_max_right _ _)] at h2
  omega

theorem place_inj (x : List Int) (i j : Nat) (v u : Int) (hi : x[i]? = some v) (hj : x[j]? = some u) (hv : 0 ≤ v)
    (hu : 0 ≤ u) (h : place x i v = place x j u) : i = j := by
  have a := place_lt x i v hi hv
  have b := place_lt x j u hj hu
  have a' : earlier v x ≤ place x i v := Nat.le_add_right _ _
  have b' : earlier u x ≤ place x j u := Nat.le_add_right _ _
  by_cases h1 : v < u
  · have := earlier_mono (v + 1) u (by omega) x
    omega
  · by_cases h2 : u < v
    · have := earlier_mono (u + 1) v (by omega) x
      omega
    · have e : v = u := by omega
      subst e
      unfold place at h
      have h1 := occ_take_succ x i v hi
      have h2 := occ_take_succ x j v hj
      by_cases h3 : i < j
      · have := occ_take_le x (i + 1) j h3 v
        omega
      · by_cases h4 : j < i
        · have := occ_take_le x (j + 1) i h4 v
          omega
        · omega

/-! ### Lengths -/

theorem maxOf_ge (x : List Int) : ∀ m, m ≤ maxOf m x ∧ ∀ v ∈ x, v ≤ maxOf m x := by
  induction x with
  | nil => intro m; exact ⟨Int.le_refl _, nofun⟩
  | cons c r ih =>
    intro m
    simp only [maxOf]
    obtain ⟨a, b⟩ := ih (if c > m then c else m)
    have hm : m ≤ (if c > m then c else m) ∧ c ≤ (if c > m then c else m) := by split <;> omega
    refine ⟨by omega, ?_⟩
    intro v hv
    cases hv with
    | head => omega
    | tail _ hv => exact b v hv

theorem maxOf_mem (x : List Int) : ∀ m, maxOf m x = m ∨ maxOf m x ∈ x := by
  induction x with
  | nil => intro m; exact .inl rfl
  | cons c r ih =>
    intro m
    simp only [maxOf]
    rcases ih (if c > m then c else m) with h | h
    · by_cases hc : c > m
      · rw [if_pos hc] at h ⊢
        rw [h]
        exact .inr List.mem_cons_self
      · rw [if_neg hc] at h ⊢
        exact .inl h
    · exact .inr (List.mem_cons_of_mem _ h)

theorem bits_spec (x : List Int) : ∀ rp : List Bool, (∀ v ∈ x, -1 ≤ v ∧ v < rp.length) →
    bits rp x = some (.inr ()) ∨ ∃ rp', bits rp x = some (.inl rp') ∧ rp'.length = rp.length ∧
      ∀ k : Nat, (rp'.getD k false).toNat = (rp.getD k false).toNat + occurrences k x := by
  induction x with
  | nil => intro rp _; exact .inr ⟨rp, rfl, rfl, fun _ => rfl⟩
  | cons n r ih =>
    intro rp h
    obtain ⟨h1, h2⟩ := h n List.mem_cons_self
    have hr : ∀ v ∈ r, -1 ≤ v ∧ v < rp.length := fun v hv => h v (List.mem_cons_of_mem _ hv)
    simp only [bits]
    rw [if_neg (by omega)]
    by_cases hn : n ≥ 0
    · rw [if_pos hn]
      have hl : n.toNat < rp.length := by omega
      rw [List.getElem?_eq_getElem hl]
      cases hb : rp[n.toNat] with
      | true => exact .inl rfl
      | false =>
        dsimp only
        rcases ih (rp.set n.toNat true) (by rw [List.length_set]; exact hr) with h | ⟨rp', a, b, c⟩
        · exact .inl h
        · refine .inr ⟨rp', a, by rw [b, List.length_set], ?_⟩
          intro k
          rw [c k, occ_cons]
          by_cases hk : n.toNat = k
          · rw [if_pos (by omega), ← hk]
            simp only [List.getD_eq_getElem?_getD, List.getElem?_set_self hl, List.getElem?_eq_getElem hl, hb,
              Option.getD_some, Bool.toNat_true, Bool.toNat_false]
            omega
          · rw [if_neg (by omega)]
            have : n.toNat ≠ k := hk
            simp only [List.getD_eq_getElem?_getD, List.getElem?_set_ne this]
            omega
    · rw [if_neg hn]
      rcases ih rp hr with h | ⟨rp', a, b, c⟩
      · exact .inl h
      · refine .inr ⟨rp', a, b, ?_⟩
        intro k
        rw [c k, occ_cons, if_neg (by omega)]
        omega

theorem counts_spec (x : List Int) : ∀ rp : List Nat, (∀ v ∈ x, -1 ≤ v ∧ v < rp.length) →
    (∀ k : Nat, rp.getD k 0 + occurrences k x < 2^31) →
    ∃ rp', counts rp x = some rp' ∧ rp'.length = rp.length ∧
      ∀ k : Nat, rp'.getD k 0 = rp.getD k 0 + occurrences k x := by
  induction x with
  | nil => intro rp _ _; exact ⟨rp, rfl, rfl, fun _ => rfl⟩
  | cons n r ih =>
    intro rp h hb
    obtain ⟨h1, h2⟩ := h n List.mem_cons_self
    have hr : ∀ v ∈ r, -1 ≤ v ∧ v < rp.length := fun v hv => h v (List.mem_cons_of_mem _ hv)
    simp only [counts]
    rw [if_neg (by omega)]
    by_cases hn : n ≥ 0
    · rw [if_pos hn]
      have hl : n.toNat < rp.length := by omega
      rw [List.getElem?_eq_getElem hl]
      dsimp only
      have e0 : rp.getD n.toNat 0 = rp[n.toNat] := by
        rw [List.getD_eq_getElem?_getD, List.getElem?_eq_getElem hl]; rfl
      have hv := hb n.toNat
      rw [occ_cons, if_pos (by omega), e0] at hv
      rw [if_pos (by omega)]
      have key : ∀ k : Nat, (rp.set n.toNat (rp[n.toNat] + 1)).getD k 0 + occurrences k r =
          rp.getD k 0 + occurrences k (n :: r) := by
        intro k
        rw [occ_cons]
        by_cases hk : n.toNat = k
        · rw [if_pos (by omega), ← hk, e0]
          rw [List.getD_eq_getElem?_getD, List.getElem?_set_self hl]
          simp only [Option.getD_some]
          omega
        · rw [if_neg (by omega)]
          simp only [List.getD_eq_getElem?_getD, List.getElem?_set_ne hk]
          omega
      obtain ⟨rp', a, b, c⟩ := ih (rp.set n.toNat (rp[n.toNat] + 1)) (by rw [List.length_set]; exact hr)
        (fun k => by rw [key k]; exact hb k)
      exact ⟨rp', a, by rw [b, List.length_set], fun k => by rw [c k, key k]⟩
    · rw [if_neg hn]
      have key : ∀ k : Nat, occurrences k (n :: r) = occurrences k r := by
        intro k
        rw [occ_cons, if_neg (by omega)]
        omega
      obtain ⟨rp', a, b, c⟩ := ih rp hr (fun k => by rw [← key k]; exact hb k)
      exact ⟨rp', a, b, fun k => by rw [c k, key k]⟩

/-! ### Order -/

theorem sums_spec (w : List Nat) : ∀ a, a + w.sum < 2^32 → (sums a w).length = w.length ∧ total a w = a + w.sum ∧
    ∀ k, k < w.length → (sums a w)[k]? = some (a + (w.take k).sum) := by
  induction w with
  | nil => intro a _; exact ⟨rfl, rfl, fun k hk => absurd hk (Nat.not_lt_zero k)⟩
  | cons v r ih =>
    intro a h
    rw [List.sum_cons] at h
    have e : (a + v) % 2^32 = a + v := Nat.mod_eq_of_lt (by omega)
    obtain ⟨i1, i2, i3⟩ := ih (a + v) (by omega)
    simp only [sums, total, e, List.length_cons, List.sum_cons]
    refine ⟨by omega, by omega, ?_⟩
    intro k hk
    cases k with
    | zero => simp
    | succ k =>
      rw [List.getElem?_cons_succ, i3 k (by omega), List.take_succ_cons, List.sum_cons]
      congr 1
      omega

theorem sum_take (w : List Nat) (x : List Int) (hw : ∀ k (h : k < w.length), w[k] = occurrences k x) :
    ∀ k, k ≤ w.length → (w.take k).sum = earlier k x := by
  intro k
  induction k with
  | zero => intro _; simp only [List.take_zero, List.sum_nil]; exact (earlier_zero x).symm
  | succ k ih =>
    intro hk
    rw [List.take_succ, List.getElem?_eq_getElem (by omega), List.sum_append, ih (by omega), hw k (by omega)]
    have := earlier_succ k (by omega) x
    simp only [Option.toList_some, List.sum_cons, List.sum_nil, Nat.add_zero]
    push_cast
    exact this.symm

theorem fill_spec (x : List Int) (n : Nat) (hn : ∀ v ∈ x, v < n) (hl : x.length < 2^31 - 1) (r : List Int) :
    ∀ (pre : List Int) (tmp rp : List Nat), pre ++ r = x → tmp.length = n → rp.length = earlier n x →
    (∀ k, k < n → tmp[k]? = some (earlier k x + occurrences k pre)) →
    (∀ (i : Nat) v, i < pre.length → x[i]? = some v → 0 ≤ v → rp[place x i v]? = some i) →
    ∃ rp', fill pre.length tmp rp r = some rp' ∧ rp'.length = earlier n x ∧
      ∀ (i : Nat) v, x[i]? = some v → 0 ≤ v → rp'[place x i v]? = some i := by
  induction r with
  | nil =>
    intro pre tmp rp hx _ h2 _ h4
    rw [List.append_nil] at hx
    subst hx
    refine ⟨rp, rfl, h2, ?_⟩
    intro i v hi hv
    exact h4 i v (List.getElem?_eq_some_iff.mp hi).1 hi hv
  | cons c r ih =>
    intro pre tmp rp hx h1 h2 h3 h4
    have hx' : (pre ++ [c]) ++ r = x := by rw [List.append_assoc]; exact hx
    have hpc : x[pre.length]? = some c := by
      rw [← hx, List.getElem?_append_right (Nat.le_refl _), Nat.sub_self]; rfl
    have htk : x.take pre.length = pre := by rw [← hx]; exact List.take_left
    have hcm : c ∈ x := by rw [← hx]; simp
    have hcn := hn c hcm
    have hlen : (pre ++ [c]).length = pre.length + 1 := by simp
    simp only [fill]
    by_cases hc : c ≥ 0
    · rw [if_pos hc, h3 c.toNat (by omega)]
      have hcc : ((c.toNat : Nat) : Int) = c := by omega
      have hp : earlier c x + occurrences c pre = place x pre.length c := by unfold place; rw [htk]
      dsimp only
      rw [hcc, hp]
      have hlt := place_lt x _ _ hpc hc
      have hle := earlier_mono (c + 1) n (by omega) x
      have hel := earlier_le n x
      rw [if_pos (by omega)]
      have e : (place x pre.length c + 1) % 2^32 = place x pre.length c + 1 := Nat.mod_eq_of_lt (by omega)
      rw [e]
      have hA : ∀ k, k < n → (tmp.set c.toNat (place x pre.length c + 1))[k]? =
          some (earlier k x + occurrences k (pre ++ [c])) := by
        intro k hk
        rw [occ_append, occ_cons, occ_nil]
        by_cases hkc : c.toNat = k
        · subst hkc
          rw [List.getElem?_set_self (by omega), if_pos hcc.symm, hcc, ← hp]
          congr 1
        · rw [List.getElem?_set_ne hkc, h3 k hk, if_neg (by omega)]
          congr 1
      have hB : ∀ (i : Nat) v, i < (pre ++ [c]).length → x[i]? = some v → 0 ≤ v →
          (rp.set (place x pre.length c) pre.length)[place x i v]? = some i := by
        intro i v hi hiv hv
        rw [hlen] at hi
        by_cases hip : i = pre.length
        · subst hip
          rw [hpc] at hiv
          injection hiv with hiv
          subst hiv
          rw [List.getElem?_set_self (by omega)]
        · have hne : place x pre.length c ≠ place x i v := by
            intro hh
            exact hip (place_inj x _ _ _ _ hpc hiv hc hv hh).symm
          rw [List.getElem?_set_ne hne]
          exact h4 i v (by omega) hiv hv
      have := ih (pre ++ [c]) (tmp.set c.toNat (place x pre.length c + 1))
        (rp.set (place x pre.length c) pre.length) hx' (by rw [List.length_set, h1]) (by rw [List.length_set, h2]) hA hB
      rw [hlen] at this
      exact this
    · rw [if_neg hc]
      have hA : ∀ k, k < n → tmp[k]? = some (earlier k x + occurrences k (pre ++ [c])) := by
        intro k hk
        rw [h3 k hk, occ_append, occ_cons, occ_nil, if_neg (by omega)]
        rfl
      have hB : ∀ (i : Nat) v, i < (pre ++ [c]).length → x[i]? = some v → 0 ≤ v → rp[place x i v]? = some i := by
        intro i v hi hiv hv
        rw [hlen] at hi
        by_cases hip : i = pre.length
        · subst hip
          rw [hpc] at hiv
          injection hiv with hiv
          omega
        · exact h4 i v (by omega) hiv hv
      have := ih (pre ++ [c]) tmp rp hx' h1 h2 hA hB
      rw [hlen] at this
      exact this

end Verif.GroupRt
