import Verif.Rand.Perm
/-! # The sorted table of `𝕨 Subset 𝕩` -/
namespace Verif.Rand
open Verif.Bits Verif.Fold Verif.Slash Verif.Select

/-- The numbers in the table. -/
def members (xi : Nat) (hash : List Nat) : List Nat := hash.filter (· ≠ xi)

/-- Numbers in the table are below `i`, in increasing order, and at or after their place with nothing free between. -/
structure SInv (xi sh i : Nat) (hash : List Nat) : Prop where
  lt : ∀ p v : Nat, hash[p]? = some v → v ≠ xi → v < i ∧ v >>> sh ≤ p
  sorted : ∀ p q v w : Nat, p < q → hash[p]? = some v → hash[q]? = some w → v ≠ xi → w ≠ xi → v < w
  run : ∀ p v q : Nat, hash[p]? = some v → v ≠ xi → v >>> sh ≤ q → q ≤ p → hash[q]? ≠ some xi

theorem shift_mono {a b : Nat} (sh : Nat) (h : a ≤ b) : a >>> sh ≤ b >>> sh := by
  rw [Nat.shiftRight_eq_div_pow, Nat.shiftRight_eq_div_pow]; exact Nat.div_le_div_right h

/-- Taken places are numbers of the table. -/
theorem run_le (xi : Nat) (hash : List Nat) (a b : Nat) (hb : b ≤ hash.length) (h : ∀ q, a ≤ q → q < b → hash[q]? ≠ some xi) : b - a ≤ (members xi hash).length := by
  have h1 : (slice hash a b).filter (· ≠ xi) = slice hash a b := by
    rw [List.filter_eq_self]
    intro v hv
    obtain ⟨i, hi, e⟩ := List.mem_iff_getElem.1 hv
    have hl : (slice hash a b).length ≤ b - a := by unfold slice; rw [List.length_take]; omega
    have h2 : (slice hash a b)[i]? = hash[a + i]? := slice_get _ _ _ _ (by omega)
    rw [List.getElem?_eq_getElem hi, e] at h2
    have := h (a + i) (by omega) (by omega)
    rw [← h2] at this
    simp only [decide_eq_true_eq]
    intro hh; exact this (by rw [hh])
  have h2 : (slice hash a b).length = b - a := by unfold slice; rw [List.length_take, List.length_drop]; omega
  have h3 : (slice hash a b).Sublist hash := (List.take_sublist _ _).trans (List.drop_sublist _ _)
  have h4 := (h3.filter (· ≠ xi)).length_le
  rw [h1, h2] at h4
  exact h4

theorem shiftUp_ok (xi : Nat) : ∀ (fuel p h : Nat) (g : List Nat) (e : Nat), p ≤ e → e < g.length → e < p + fuel → p < g.length →
    (h = xi → e = p) → (h ≠ xi → p < e) → (∀ q, p < q → q < e → g[q]? ≠ some xi) → (p < e → g[e]? = some xi) →
    ∃ r, shiftUp xi fuel p h g = some r ∧ r.length = g.length ∧ (xi :: r).Perm (h :: g) ∧
      ∀ q, r[q]? = if p < q ∧ q ≤ e then (if q = p + 1 then some h else g[q - 1]?) else g[q]?
  | 0, p, h, g, e, h1, h2, h3, h4, h5, h6, h7, h8 => by omega
  | fuel + 1, p, h, g, e, h1, h2, h3, h4, h5, h6, h7, h8 => by
    rw [shiftUp]
    by_cases hx : h = xi
    · rw [if_neg (by simp [hx])]
      refine ⟨g, rfl, rfl, by rw [hx], fun q => ?_⟩
      rw [if_neg (by have := h5 hx; omega)]
    · rw [if_pos hx]
      have hpe := h6 hx
      have hp1 : p + 1 < g.length := by omega
      rw [List.getElem?_eq_getElem hp1, Option.bind_some, wr_ok _ hp1, Option.bind_some]
      obtain ⟨r, er, hl, hp, hq⟩ := shiftUp_ok xi fuel (p + 1) g[p + 1] (g.set (p + 1) h) e (by omega) (by rw [List.length_set]; exact h2) (by omega) (by rw [List.length_set]; exact hp1)
        (fun hh => by
          rcases Nat.lt_or_ge (p + 1) e with hlt | hge
          · exact absurd (by rw [List.getElem?_eq_getElem hp1, hh]) (h7 (p + 1) (by omega) hlt)
          · omega)
        (fun hh => by
          rcases Nat.lt_or_ge (p + 1) e with hlt | hge
          · exact hlt
          · have he : e = p + 1 := by omega
            have := h8 hpe
            rw [he, List.getElem?_eq_getElem hp1] at this
            exact absurd (Option.some.inj this) hh)
        (fun q hq1 hq2 => by rw [List.getElem?_set_ne (by omega)]; exact h7 q (by omega) hq2)
        (fun hlt => by rw [List.getElem?_set_ne (by omega)]; exact h8 hpe)
      refine ⟨r, er, by rw [hl, List.length_set], hp.trans (cons_set_perm h _ _ _ (List.getElem?_eq_getElem hp1)), fun q => ?_⟩
      rw [hq]
      by_cases c1 : p + 1 < q ∧ q ≤ e
      · rw [if_pos c1, if_pos (show p < q ∧ q ≤ e by omega), if_neg (show ¬ q = p + 1 by omega)]
        by_cases c2 : q = p + 1 + 1
        · rw [if_pos c2, c2, Nat.add_sub_cancel, List.getElem?_eq_getElem hp1]
        · rw [if_neg c2, List.getElem?_set_ne (by omega)]
      · rw [if_neg c1]
        by_cases c2 : q = p + 1
        · rw [if_pos (show p < q ∧ q ≤ e by omega), if_pos c2, c2, List.getElem?_set_self hp1]
        · rw [if_neg (show ¬ (p < q ∧ q ≤ e) by omega), List.getElem?_set_ne (by omega)]

/-- The first free place from `p` on. -/
theorem first_free (xi : Nat) (hash : List Nat) : ∀ (k p : Nat), k + p = hash.length → ¬ (∀ q, p ≤ q → q < hash.length → hash[q]? ≠ some xi) →
    ∃ e, p ≤ e ∧ e < hash.length ∧ hash[e]? = some xi ∧ ∀ q, p ≤ q → q < e → hash[q]? ≠ some xi
  | 0, p, h, hn => absurd (fun q h1 h2 => by omega) hn
  | k + 1, p, h, hn => by
    by_cases hp : hash[p]? = some xi
    · exact ⟨p, Nat.le_refl _, by omega, hp, fun q h1 h2 => by omega⟩
    · obtain ⟨e, h1, h2, h3, h4⟩ := first_free xi hash k (p + 1) (by omega) (fun hall => hn fun q h1 h2 => by
        rcases Nat.eq_or_lt_of_le h1 with he | hl
        · rw [← he]; exact hp
        · exact hall q hl h2)
      refine ⟨e, by omega, h2, h3, fun q hq1 hq2 => ?_⟩
      rcases Nat.eq_or_lt_of_le hq1 with he | hl
      · rw [← he]; exact hp
      · exact h4 q hl hq2

/-- Putting `j` at the place `p` where the search ended. -/
theorem put_ok (xi sh i : Nat) (hash : List Nat) (hI : SInv xi sh i hash) (j p h : Nat) (hij : j ≤ i) (hix : i < xi) (hp : hash[p]? = some h) (hjh : j < h) (hp0 : j >>> sh ≤ p)
    (hrun : ∀ q v, j >>> sh ≤ q → q < p → hash[q]? = some v → v ≠ xi ∧ v < j) (hroom : j >>> sh + (members xi hash).length < hash.length) :
    ∃ r, ((wr hash p j).bind fun hash' => shiftUp xi hash.length p h hash') = some r ∧ r.length = hash.length ∧ SInv xi sh (i + 1) r ∧ (xi :: r).Perm (j :: hash) := by
  have hpl : p < hash.length := (List.getElem?_eq_some_iff.1 hp).1
  obtain ⟨e, e1, e2, e3, e4⟩ := first_free xi hash (hash.length - p) p (by omega) (fun hall => by
    have := run_le xi hash (j >>> sh) hash.length (Nat.le_refl _) (fun q h1 h2 => by
      rcases Nat.lt_or_ge q p with hlt | hge
      · have := List.getElem?_eq_getElem h2
        rw [this]
        intro hh
        exact (hrun q _ h1 hlt this).1 (Option.some.inj hh)
      · exact hall q hge h2)
    omega)
  rw [wr_ok _ hpl, Option.bind_some]
  obtain ⟨r, er, hl, hperm, hr⟩ := shiftUp_ok xi hash.length p h (hash.set p j) e e1 (by rw [List.length_set]; exact e2) (by omega) (by rw [List.length_set]; exact hpl)
    (fun hh => by
      rcases Nat.lt_or_ge p e with hlt | hge
      · exact absurd (by rw [hp, hh]) (e4 p (Nat.le_refl _) hlt)
      · omega)
    (fun hh => by
      rcases Nat.lt_or_ge p e with hlt | hge
      · exact hlt
      · have : e = p := by omega
        rw [this, hp] at e3
        exact absurd (Option.some.inj e3) hh)
    (fun q h1 h2 => by rw [List.getElem?_set_ne (by omega)]; exact e4 q (by omega) h2)
    (fun hlt => by rw [List.getElem?_set_ne (by omega)]; exact e3)
  have R : ∀ q, r[q]? = if q < p then hash[q]? else if q = p then some j else if q ≤ e then hash[q - 1]? else hash[q]? := by
    intro q
    rw [hr]
    by_cases c1 : q < p
    · rw [if_neg (by omega), if_pos c1, List.getElem?_set_ne (by omega)]
    rw [if_neg c1]
    by_cases c2 : q = p
    · rw [if_neg (by omega), if_pos c2, c2, List.getElem?_set_self hpl]
    rw [if_neg c2]
    by_cases c3 : q ≤ e
    · rw [if_pos (by omega), if_pos c3]
      by_cases c4 : q = p + 1
      · rw [if_pos c4, c4, Nat.add_sub_cancel, hp]
      · rw [if_neg c4, List.getElem?_set_ne (by omega)]
    · rw [if_neg (by omega), if_neg c3, List.getElem?_set_ne (by omega)]
  -- an entry of the result is `j`, or an entry from the same place, or from the one before
  have ent : ∀ q v, r[q]? = some v → v ≠ xi → (q = p ∧ v = j) ∨ ((q < p ∨ e < q) ∧ hash[q]? = some v) ∨ (p < q ∧ q ≤ e ∧ hash[q - 1]? = some v) := by
    intro q v hq hv
    rw [R] at hq
    by_cases c1 : q < p
    · rw [if_pos c1] at hq; exact Or.inr (Or.inl ⟨Or.inl c1, hq⟩)
    rw [if_neg c1] at hq
    by_cases c2 : q = p
    · rw [if_pos c2] at hq; exact Or.inl ⟨c2, (Option.some.inj hq).symm⟩
    rw [if_neg c2] at hq
    by_cases c3 : q ≤ e
    · rw [if_pos c3] at hq; exact Or.inr (Or.inr ⟨by omega, c3, hq⟩)
    · rw [if_neg c3] at hq; exact Or.inr (Or.inl ⟨Or.inr (by omega), hq⟩)
  have low : ∀ q v, q < p → hash[q]? = some v → v ≠ xi → v < j := by
    intro q v hqp hq hv
    rcases Nat.lt_or_ge q (j >>> sh) with hlt | hge
    · have := (hI.lt q v hq hv).2
      rcases Nat.lt_or_ge v j with hh | hh
      · exact hh
      · have := shift_mono sh hh; omega
    · exact (hrun q v hge hqp hq).2
  have high : ∀ q v, p ≤ q → hash[q]? = some v → v ≠ xi → j < v := by
    intro q v hqp hq hv
    by_cases hh : h = xi
    · rcases Nat.lt_or_ge j v with h1 | h1
      · exact h1
      · have h2 := shift_mono sh h1
        exact absurd (by rw [hp, hh]) (hI.run q v p hq hv (by omega) hqp)
    · rcases Nat.eq_or_lt_of_le hqp with he | hlt
      · rw [← he, hp] at hq
        rw [← Option.some.inj hq]; exact hjh
      · exact Nat.lt_trans hjh (hI.sorted p q h v hlt hp hq hh hv)
  refine ⟨r, er, by rw [hl, List.length_set], ⟨?_, ?_, ?_⟩, hperm.trans (cons_set_perm j h hash p hp)⟩
  · intro q v hq hv
    rcases ent q v hq hv with ⟨h1, h2⟩ | ⟨h1, h2⟩ | ⟨h1, h2, h3⟩
    · subst h1 h2; exact ⟨by omega, hp0⟩
    · have := hI.lt q v h2 hv; exact ⟨by omega, this.2⟩
    · have := hI.lt (q - 1) v h3 hv; exact ⟨by omega, by omega⟩
  · intro q q' v w hqq hq hq' hv hw
    rcases ent q v hq hv with ⟨h1, h2⟩ | ⟨h1, h2⟩ | ⟨h1, h2, h3⟩ <;> rcases ent q' w hq' hw with ⟨k1, k2⟩ | ⟨k1, k2⟩ | ⟨k1, k2, k3⟩
    · omega
    · rw [h2]; exact high q' w (by omega) k2 hw
    · rw [h2]; exact high (q' - 1) w (by omega) k3 hw
    · rw [k2]; exact low q v (by omega) h2 hv
    · exact hI.sorted q q' v w hqq h2 k2 hv hw
    · exact hI.sorted q (q' - 1) v w (by omega) h2 k3 hv hw
    · omega
    · exact hI.sorted (q - 1) q' v w (by omega) h3 k2 hv hw
    · exact hI.sorted (q - 1) (q' - 1) v w (by omega) h3 k3 hv hw
  · intro q v t hq hv ht htq hxi
    have free : hash[t]? = some xi ∧ (t < p ∨ e < t) := by
      rw [R] at hxi
      by_cases c1 : t < p
      · rw [if_pos c1] at hxi; exact ⟨hxi, Or.inl c1⟩
      rw [if_neg c1] at hxi
      by_cases c2 : t = p
      · rw [if_pos c2] at hxi
        have := Option.some.inj hxi
        omega
      rw [if_neg c2] at hxi
      by_cases c3 : t ≤ e
      · rw [if_pos c3] at hxi
        exact absurd hxi (e4 (t - 1) (by omega) (by omega))
      · rw [if_neg c3] at hxi; exact ⟨hxi, Or.inr (by omega)⟩
    rcases ent q v hq hv with ⟨h1, h2⟩ | ⟨h1, h2⟩ | ⟨h1, h2, h3⟩
    · rw [h2] at ht
      rcases free.2 with hlt | hlt
      · exact (hrun t xi ht hlt free.1).1 rfl
      · omega
    · exact hI.run q v t h2 hv ht htq free.1
    · rcases free.2 with hlt | hlt
      · exact hI.run (q - 1) v t h3 hv ht (by omega) free.1
      · omega

/-- The search for `j` ends at an entry that is not smaller. -/
theorem search_ok (xi sh i : Nat) (hash : List Nat) (j : Nat) (hjx : j < xi) (hroom : j >>> sh + (members xi hash).length < hash.length) :
    ∀ (k p fuel : Nat), k + p = hash.length → j >>> sh ≤ p → k < fuel → (∀ q v, j >>> sh ≤ q → q < p → hash[q]? = some v → v ≠ xi ∧ v < j) →
    ∃ p' h f, insert xi sh i fuel j p hash = insert xi sh i (f + 1) j p' hash ∧ p ≤ p' ∧ f + 1 + p' = fuel + p ∧ hash[p']? = some h ∧ j ≤ h ∧ (∀ q v, j >>> sh ≤ q → q < p' → hash[q]? = some v → v ≠ xi ∧ v < j)
  | 0, p, fuel, hk, hp0, hf, hrun => by
    have := run_le xi hash (j >>> sh) hash.length (Nat.le_refl _) (fun q h1 h2 => by
      have e := List.getElem?_eq_getElem h2
      rw [e]
      intro hh
      exact (hrun q _ h1 (by omega) e).1 (Option.some.inj hh))
    omega
  | k + 1, p, fuel, hk, hp0, hf, hrun => by
    have hpl : p < hash.length := by omega
    have e := List.getElem?_eq_getElem hpl
    obtain ⟨f, rfl⟩ : ∃ f, fuel = f + 1 := ⟨fuel - 1, by omega⟩
    by_cases c : j ≤ hash[p]
    · exact ⟨p, _, f, rfl, Nat.le_refl _, rfl, e, c, hrun⟩
    · obtain ⟨p', h, f', e1, e2, e3, e4, e5, e6⟩ := search_ok xi sh i hash j hjx hroom k (p + 1) f (by omega) (by omega) (by omega) (fun q v h1 h2 h3 => by
        rcases Nat.lt_or_ge q p with hlt | hge
        · exact hrun q v h1 hlt h3
        · have : q = p := by omega
          rw [this, e] at h3
          have := Option.some.inj h3
          exact ⟨by omega, by omega⟩)
      refine ⟨p', h, f', ?_, by omega, by omega, e4, e5, e6⟩
      rw [insert, e, Option.bind_some, if_neg (by omega), if_neg (by omega), e1]

theorem insert_ok (xi sh i : Nat) (hash : List Nat) (hI : SInv xi sh i hash) (j : Nat) (hij : j ≤ i) (hix : i < xi)
    (hroom : i >>> sh + (members xi hash).length < hash.length) :
    ∃ r v, insert xi sh i (2 * hash.length + 2) j (j >>> sh) hash = some r ∧ r.length = hash.length ∧ SInv xi sh (i + 1) r ∧ v ≤ i ∧ (xi :: r).Perm (v :: hash) := by
  have hm := shift_mono sh hij
  have norun : ∀ j q v : Nat, j >>> sh ≤ q → q < j >>> sh → hash[q]? = some v → v ≠ xi ∧ v < j := fun j q v h1 h2 => by omega
  obtain ⟨p, h, f, e1, e2, e3, e4, e5, e6⟩ := search_ok xi sh i hash j (by omega) (by omega) (hash.length - j >>> sh) (j >>> sh) (2 * hash.length + 2) (by omega) (Nat.le_refl _) (Nat.lt_of_le_of_lt (Nat.sub_le _ _) (by omega)) (norun j)
  have hpl : p < hash.length := (List.getElem?_eq_some_iff.1 e4).1
  rw [e1, insert, e4, Option.bind_some]
  by_cases c : j < h
  · rw [if_pos c]
    obtain ⟨r, g1, g2, g3, g4⟩ := put_ok xi sh i hash hI j p h hij hix e4 c e2 e6 (by omega)
    exact ⟨r, j, g1, g2, g3, hij, g4⟩
  · rw [if_neg c, if_pos (by omega)]
    have hhj : h = j := by omega
    have hlt := (hI.lt p h e4 (by omega)).1
    rw [if_neg (by omega)]
    have hfl : hash.length < f := by
      generalize j >>> sh = js at e3
      omega
    obtain ⟨p2, h2, f2, d1, d2, d3, d4, d5, d6⟩ := search_ok xi sh i hash i hix hroom (hash.length - i >>> sh) (i >>> sh) f (by omega) (Nat.le_refl _) (Nat.lt_of_le_of_lt (Nat.sub_le _ _) hfl) (norun i)
    have hc : i < h2 := by
      by_cases hx : h2 = xi
      · omega
      · have := (hI.lt p2 h2 d4 hx).1; omega
    rw [d1, insert, d4, Option.bind_some, if_pos hc]
    obtain ⟨r, g1, g2, g3, g4⟩ := put_ok xi sh i hash hI i p2 h2 (Nat.le_refl _) hix d4 hc d2 d6 hroom
    exact ⟨r, i, g1, g2, g3, Nat.le_refl _, g4⟩

theorem members_perm (xi v : Nat) (r hash : List Nat) (hv : v ≠ xi) (h : (xi :: r).Perm (v :: hash)) : (members xi r).length = (members xi hash).length + 1 := by
  have := (h.filter (· ≠ xi)).length_eq
  rw [List.filter_cons_of_neg (by simp), List.filter_cons_of_pos (by simpa using hv), List.length_cons] at this
  exact this

theorem inserts_ok (rnd : Nat → Word) (xi sh sz : Nat) : ∀ (l i t : Nat) (hash : List Nat), i + l = xi → hash.length = sz → SInv xi sh i hash →
    (xi - 1) >>> sh + (members xi hash).length + l ≤ sz →
    ∃ r, inserts rnd xi sh l i t hash = some r ∧ SInv xi sh xi r ∧ (members xi r).length = (members xi hash).length + l
  | 0, i, t, hash, hi, hl, hI, _ => ⟨hash, rfl, by have : i = xi := hi; exact this ▸ hI, rfl⟩
  | l + 1, i, t, hash, hi, hl, hI, hroom => by
    have hj := wy2u0k_lt (rnd t) (i + 1) (by omega)
    have hm := shift_mono sh (show i ≤ xi - 1 by omega)
    obtain ⟨r, v, e, h1, h2, h3, h4⟩ := insert_ok xi sh i hash hI (wy2u0k (rnd t) (i + 1)) (by omega) (by omega) (by omega)
    have hc := members_perm xi v r hash (by omega) h4
    obtain ⟨r', e', g1, g2⟩ := inserts_ok rnd xi sh sz l (i + 1) (t + 1) r (by omega) (by omega) h2 (by omega)
    refine ⟨r', ?_, g1, by omega⟩
    rw [inserts]
    rw [e, Option.bind_some, e']

theorem members_sorted (xi sh : Nat) (hash : List Nat) (hI : SInv xi sh xi hash) : (members xi hash).Pairwise (· < ·) ∧ ∀ v ∈ members xi hash, v < xi := by
  constructor
  · unfold members
    rw [List.pairwise_filter, List.pairwise_iff_getElem]
    intro p q hp hq hpq hv hw
    simp only [decide_eq_true_eq] at hv hw
    exact hI.sorted p q _ _ hpq (List.getElem?_eq_getElem hp) (List.getElem?_eq_getElem hq) hv hw
  · intro v hv
    unfold members at hv
    rw [List.mem_filter] at hv
    obtain ⟨p, hp⟩ := List.mem_iff_getElem?.1 hv.1
    exact (hI.lt p v hp (by simpa using hv.2)).1

theorem members_none (xi n : Nat) : members xi (List.replicate n xi) = [] := by
  unfold members
  rw [List.filter_eq_nil_iff]
  intro v hv
  simp [List.eq_of_mem_replicate hv]

/-! ## The set of booleans -/

theorem floyd_ok (rnd : Nat → Word) (n : Nat) : ∀ (l i t : Nat) (set : List Bool), i + l = n → set.length = n → (∀ v, set[v]? = some true → v < i) →
    ∃ r, floyd rnd l i t set = some r ∧ r.length = n ∧ r.count true = set.count true + l
  | 0, _, _, set, _, hl, _ => ⟨set, rfl, hl, rfl⟩
  | l + 1, i, t, set, hi, hl, hlt => by
    have hj := wy2u0k_lt (rnd t) (i + 1) (by omega)
    rw [floyd]
    generalize wy2u0k (rnd t) (i + 1) = j at hj ⊢
    have hjl : j < set.length := by omega
    rw [List.getElem?_eq_getElem hjl, Option.bind_some]
    have key : ∀ k, k ≤ i → (hk : k < set.length) → set[k] = false →
        ∃ r, ((wr set k true).bind fun set => floyd rnd l (i + 1) (t + 1) set) = some r ∧ r.length = n ∧ r.count true = set.count true + (l + 1) := by
      intro k hki hk hf
      rw [wr_ok _ hk, Option.bind_some]
      obtain ⟨r, e, h1, h2⟩ := floyd_ok rnd n l (i + 1) (t + 1) (set.set k true) (by omega) (by rw [List.length_set, hl]) (fun v hv => by
        rw [List.getElem?_set] at hv
        by_cases c : k = v
        · omega
        · rw [if_neg c] at hv
          have := hlt v hv
          omega)
      refine ⟨r, e, h1, ?_⟩
      rw [h2, List.count_set hk, hf]
      simp; omega
    by_cases hb : set[j] = true
    · rw [hb, if_pos rfl]
      have hil : i < set.length := by omega
      apply key i (Nat.le_refl _) hil
      rcases hh : set[i] with _ | _
      · rfl
      · have := hlt i (by rw [List.getElem?_eq_getElem hil, hh])
        omega
    · have hb : set[j] = false := by simpa using hb
      rw [hb]
      exact key j (by omega) hjl hb

theorem positions_props (bs : List Bool) : (positions bs).length = bs.count true ∧ (positions bs).Pairwise (· < ·) ∧ ∀ v ∈ positions bs, v < bs.length := by
  refine ⟨?_, ?_, ?_⟩
  · induction bs with
    | nil => rfl
    | cons b bs ih =>
      unfold positions at ih ⊢
      rw [List.length_cons, List.range_succ_eq_map, List.filter_cons]
      have : ((List.map Nat.succ (List.range bs.length)).filter fun i => (b :: bs).getD i false).length = bs.count true := by
        rw [List.filter_map, List.length_map, ← ih]
        rfl
      cases b
      · simp at this ⊢; exact this
      · simp at this ⊢; exact this
  · unfold positions
    exact List.Pairwise.filter _ List.pairwise_lt_range
  · intro v hv
    unfold positions at hv
    exact List.mem_range.1 (List.mem_filter.1 hv).1

end Verif.Rand
