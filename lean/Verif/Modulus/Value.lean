import Verif.Modulus.Main
/-!
# Modulus of integers: elements
-/
namespace Verif.Modulus

theorem has_i32 {t : ITy} {n : ℤ} (h : t.Has n) : -2^31 ≤ n ∧ n < 2^31 := by
  cases t with
  | bit => rcases h with rfl | rfl <;> decide
  | i8 => obtain ⟨h1, h2⟩ := h; exact ⟨by omega, by omega⟩
  | i16 => obtain ⟨h1, h2⟩ := h; exact ⟨by omega, by omega⟩
  | i32 => exact h

theorem has_small {t : ITy} {n : ℤ} (h : t.Has n) (hs : t.small = true) : |n| ≤ 2^15 := by
  rw [abs_le]
  cases t with
  | bit => rcases h with rfl | rfl <;> decide
  | i8 => obtain ⟨h1, h2⟩ := h; exact ⟨by omega, by omega⟩
  | i16 => obtain ⟨h1, h2⟩ := h; exact ⟨by omega, by omega⟩
  | i32 => cases hs

theorem abs_i32 {n : ℤ} (h : -2^31 ≤ n ∧ n < 2^31) : |n| ≤ 2^31 := abs_le.2 ⟨h.1, h.2.le⟩

/-- What is left. -/
theorem rem_floor {w x : ℤ} (hw : w ≠ 0) : Rem w x (x - w * ⌊(x:ℚ) / w⌋) ∧ |w * ⌊(x:ℚ) / w⌋| ≤ |x| + |w| := by
  obtain ⟨m, a, ha, ha2, hm, e, hs⟩ := quot_sign (w := x) hw
  rw [e]
  obtain ⟨g1, g2⟩ := floor_gap (w := m) ha
  generalize ⌊(m:ℚ) / a⌋ = f at *
  have g1' : f * a ≤ m := by exact_mod_cast g1
  have g2' : m + 1 ≤ (f + 1) * a := by exact_mod_cast g2
  rw [add_mul, one_mul] at g2'
  have hf : |w * f| = |f * a| := by rw [abs_mul, abs_mul, ← ha2, abs_of_pos ha, mul_comm]
  refine ⟨⟨⟨f, by ring⟩, fun h => ?_, fun h => ?_⟩, ?_⟩
  · rcases hs with ⟨h1, h2⟩ | ⟨h1, h2⟩
    · subst h1 h2; rw [mul_comm]; constructor <;> linarith
    · omega
  · rcases hs with ⟨h1, h2⟩ | ⟨h1, h2⟩
    · omega
    · subst h1 h2; rw [show -a * f = -(f * a) by ring]; constructor <;> linarith
  · rw [hf, ← hm, ← ha2, abs_le]
    have := abs_le.1 (le_refl |m|)
    constructor <;> linarith [this.1, this.2]

/-- `x - w×⌊x÷w`, as doubles. -/
theorem sub_mul_floor {w x : ℤ} (hw : w ≠ 0) (hw' : |w| ≤ 2^31) (hx' : |x| ≤ 2^31) :
    ∃ r, (int x).sub ((int w).mul (.fin (⌊(x:ℚ) / w⌋ : ℤ))) = int r ∧ Rem w x r := by
  obtain ⟨h1, h2⟩ := rem_floor (x := x) hw
  generalize ⌊(x:ℚ) / w⌋ = f at *
  refine ⟨_, ?_, h1⟩
  show D.fin _ = D.fin _
  rw [show (w:ℚ) * f = ((w * f : ℤ) : ℚ) by push_cast; rfl, rnd_int (by omega), show (x:ℚ) - ((w * f : ℤ) : ℚ) = ((x - w * f : ℤ) : ℚ) by push_cast; rfl, rnd_int]
  have := abs_sub x (w * f)
  omega

theorem floordivAA_eq {t : ITy} {w x : ℤ} (ht : t.Has w) (hx : -2^31 ≤ x ∧ x < 2^31) (h0 : x ≠ 0) : floordivAA t.small w x = .fin (⌊(w:ℚ) / x⌋ : ℤ) := by
  have h0' : (x:ℚ) ≠ 0 := by exact_mod_cast h0
  have hx' := abs_i32 hx
  have hw' := abs_i32 (has_i32 ht)
  cases hs : t.small with
  | false =>
    rw [floordivAA, if_neg (by decide), rnd_int (by omega), rnd_int (by omega), div, if_neg h0', D.floor, floor_div h0 (by omega)]
  | true =>
    have hw2 := has_small ht hs
    rw [floordivAA, if_pos rfl, rnd_int (by omega)]
    by_cases hb : |x| < 2^24
    · rw [rnd_int hb, div, if_neg h0', D.floor, floor_div h0 (by omega)]
    · obtain ⟨h1, h2⟩ := floor_div_big hw2 (by omega : 2^24 ≤ |x|)
      rw [div, if_neg h2, D.floor, h1]

theorem rnd_zero (p : ℕ) : rnd p 0 = 0 := if_pos rfl

/-- Modulus 0. -/
theorem modAA_zero (b : Bool) (x : ℤ) : (int x).sub ((int 0).mul (floordivAA b x 0)) = .nan := by
  have hd : ∀ p q, ∃ d, (div p q (rnd p ((0:ℤ):ℚ))).floor = d ∧ (d = .nan ∨ d = .pinf ∨ d = .ninf) := by
    intro p q
    refine ⟨_, rfl, ?_⟩
    rw [Int.cast_zero, rnd_zero, div, if_pos rfl]
    by_cases h1 : q = 0
    · rw [if_pos h1]; exact .inl rfl
    · rw [if_neg h1]
      by_cases h2 : 0 < q
      · rw [if_pos h2]; exact .inr (.inl rfl)
      · rw [if_neg h2]; exact .inr (.inr rfl)
  have hm : ∀ d : D, (d = .nan ∨ d = .pinf ∨ d = .ninf) → (int 0).mul d = .nan := by
    rintro d (rfl | rfl | rfl)
    · rfl
    · rw [int, Int.cast_zero]; rfl
    · rw [int, Int.cast_zero]; rfl
  have : (int 0).mul (floordivAA b x 0) = .nan := by
    cases b with
    | true => rw [floordivAA, if_pos rfl]; obtain ⟨d, e, h⟩ := hd 24 (rnd 24 x); rw [e]; exact hm d h
    | false => rw [floordivAA, if_neg (by decide)]; obtain ⟨d, e, h⟩ := hd 53 (rnd 53 x); rw [e]; exact hm d h
  rw [this]
  rfl

theorem floor_half {w x : ℤ} (h : 2 ≤ |x|) : |⌊(w:ℚ) / x⌋| ≤ (|w| + 1) / 2 := by
  have h0 : x ≠ 0 := by rintro rfl; simp at h
  obtain ⟨m, a, ha, ha2, hm, e, hs⟩ := quot_sign (w := w) h0
  rw [e]
  obtain ⟨g1, g2⟩ := floor_gap (w := m) ha
  generalize ⌊(m:ℚ) / a⌋ = f at *
  have g1' : f * a ≤ m := by exact_mod_cast g1
  have g2' : m + 1 ≤ (f + 1) * a := by exact_mod_cast g2
  have hmb := abs_le.1 (le_refl |m|)
  rcases le_or_gt 0 f with hf | hf
  · rw [abs_of_nonneg hf]
    have : f * 2 ≤ f * a := mul_le_mul_of_nonneg_left (by omega) hf
    omega
  · rw [abs_of_neg hf]
    have : (f + 1) * a ≤ (f + 1) * 2 := mul_le_mul_of_nonpos_left (by omega) (by omega)
    omega

theorem floordivAS_eq {t : ITy} {w x : ℤ} (ht : t.Has w) (h0 : x ≠ 0) : floordivAS t.small w x = some (.fin (⌊(w:ℚ) / x⌋ : ℤ)) := by
  unfold floordivAS
  by_cases h1 : x = 1
  · rw [if_pos h1, h1, Int.cast_one, div_one, Int.floor_intCast]; rfl
  rw [if_neg h1]
  by_cases h2 : x = -1
  · rw [if_pos h2, h2, show ((-1 : ℤ) : ℚ) = -1 by push_cast; rfl, div_neg, div_one, ← Int.cast_neg, Int.floor_intCast]; rfl
  rw [if_neg h2, if_neg h0]
  have hh : 2 ≤ |x| := by
    rcases abs_cases x with ⟨h, _⟩ | ⟨h, _⟩ <;> omega
  have hf := floor_half (w := w) hh
  have hw' := abs_i32 (has_i32 ht)
  cases hs : t.small with
  | true =>
    have hw2 := has_small ht hs
    have e := recip_floor (p := 24) (x := x) (w := w) (by decide) (by decide) h0 (by omega)
    have := abs_le.1 (le_refl |⌊(w:ℚ) / x⌋|)
    rw [if_pos rfl, store, e, if_pos (by constructor <;> omega)]
    rfl
  | false =>
    have e := recip_floor (p := 53) (x := x) (w := w) (by decide) (by decide) h0 (by omega)
    have := abs_le.1 (le_refl |⌊(w:ℚ) / x⌋|)
    rw [if_neg (by decide), store, e, if_pos (by constructor <;> omega)]
    rfl

theorem mapM_some {α β : Type} {f : α → Option β} {g : α → β} : ∀ {l : List α}, (∀ a ∈ l, f a = some (g a)) → l.mapM f = some (l.map g)
  | [], _ => rfl
  | a :: l, h => by
    rw [List.mapM_cons, h a List.mem_cons_self, mapM_some fun b hb => h b (List.mem_cons_of_mem _ hb)]
    rfl

/-- `fmod` of integers. -/
theorem pfmod_int {w x : ℤ} (hw : w ≠ 0) (hw' : |w| < 2^53) : ∃ r, pfmod x w = int r ∧ Rem w x r := by
  have hw0 : (w:ℚ) ≠ 0 := by exact_mod_cast hw
  obtain ⟨hr, _⟩ := rem_floor (x := x) hw
  have h1 := Int.floor_le ((x:ℚ) / w)
  have h2 := Int.lt_floor_add_one ((x:ℚ) / w)
  have e0 : (x:ℚ) / w * w = x := by field_simp
  unfold pfmod fmod
  rw [if_neg hw0]
  dsimp only
  by_cases hq : 0 ≤ (x:ℚ) / w
  · rw [if_pos hq]
    refine ⟨_, ?_, hr⟩
    generalize ⌊(x:ℚ) / w⌋ = f at *
    have hc : ¬ (decide ((x:ℚ) < 0) ≠ decide ((w:ℚ) < 0) ∧ (x:ℚ) - w * f ≠ 0) := by
      rintro ⟨hd, hn⟩
      rcases lt_or_gt_of_ne hw0 with hw1 | hw1
      · have hx : (x:ℚ) ≤ 0 := by rw [← e0]; exact mul_nonpos_of_nonneg_of_nonpos hq hw1.le
        rcases eq_or_lt_of_le hx with h | h
        · have : x = 0 := by exact_mod_cast h
          subst this
          rw [Int.cast_zero, zero_div] at h1 h2
          have hf : f = 0 := by
            have a1 : f ≤ 0 := by exact_mod_cast h1
            have a2 : 0 < f + 1 := by exact_mod_cast h2
            omega
          subst hf
          exact hn (by push_cast; ring)
        · exact hd (by rw [decide_eq_true h, decide_eq_true hw1])
      · have hx : (0:ℚ) ≤ x := by rw [← e0]; exact mul_nonneg hq hw1.le
        exact hd (by rw [decide_eq_false (not_lt.2 hx), decide_eq_false (not_lt.2 hw1.le)])
    rw [if_neg hc]
    show D.fin _ = D.fin _
    push_cast
    rfl
  · rw [if_neg hq]
    have hq := not_le.1 hq
    have hd : decide ((x:ℚ) < 0) ≠ decide ((w:ℚ) < 0) := by
      rcases lt_or_gt_of_ne hw0 with hw1 | hw1
      · have hx : (0:ℚ) < x := by rw [← e0]; exact mul_pos_of_neg_of_neg hq hw1
        rw [decide_eq_false (not_lt.2 hx.le), decide_eq_true hw1]; decide
      · have hx : (x:ℚ) < 0 := by rw [← e0]; exact mul_neg_of_neg_of_pos hq hw1
        rw [decide_eq_true hx, decide_eq_false (not_lt.2 hw1.le)]; decide
    by_cases hi : (x:ℚ) / w = (⌊(x:ℚ) / w⌋ : ℤ)
    · have hc : ⌈(x:ℚ) / w⌉ = ⌊(x:ℚ) / w⌋ := by rw [hi, Int.ceil_intCast, Int.floor_intCast]
      rw [hc]
      have hz : (x:ℚ) - w * (⌊(x:ℚ) / w⌋ : ℤ) = 0 := by rw [← hi]; field_simp; ring
      rw [if_neg fun h => h.2 hz]
      refine ⟨_, ?_, hr⟩
      show D.fin _ = D.fin _
      push_cast
      rfl
    · have hc : ⌈(x:ℚ) / w⌉ = ⌊(x:ℚ) / w⌋ + 1 := by
        rw [Int.ceil_eq_iff]
        refine ⟨?_, by push_cast; exact h2.le⟩
        push_cast
        have := lt_of_le_of_ne h1 (fun h => hi h.symm)
        linarith
      rw [hc]
      refine ⟨_, ?_, hr⟩
      generalize ⌊(x:ℚ) / w⌋ = f at *
      have hn : (x:ℚ) - w * ((f + 1 : ℤ) : ℚ) ≠ 0 := by
        intro h
        have e : (x:ℚ) = w * (f + 1) := by push_cast at h; linarith
        have : (x:ℚ) / w = f + 1 := by rw [e]; field_simp
        linarith
      rw [if_pos ⟨hd, hn⟩, show (x:ℚ) - w * ((f + 1 : ℤ) : ℚ) + w = ((x - w * f : ℤ) : ℚ) by push_cast; ring, rnd_int]
      · rfl
      · obtain ⟨_, a, b⟩ := hr
        have := abs_lt.1 hw'
        rw [abs_lt]
        rcases lt_or_gt_of_ne hw with h | h
        · have := b h; constructor <;> omega
        · have := a h; constructor <;> omega

end Verif.Modulus
