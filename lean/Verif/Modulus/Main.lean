import Verif.Modulus.Lemmas
/-!
# Modulus of integers: division rounded down
-/
namespace Verif.Modulus

/-! ## Floor -/

/-- The quotient of integers is at least as far from the next integer as the divisor allows. -/
theorem floor_gap {w a : ℤ} (ha : 0 < a) : ((⌊(w:ℚ) / a⌋ : ℤ) : ℚ) * a ≤ w ∧ (w:ℚ) + 1 ≤ ((⌊(w:ℚ) / a⌋ : ℤ) + 1 : ℚ) * a := by
  have ha' : (0:ℚ) < a := by exact_mod_cast ha
  have h1 := Int.floor_le ((w:ℚ) / a)
  have h2 := Int.lt_floor_add_one ((w:ℚ) / a)
  rw [le_div_iff₀ ha'] at h1
  rw [div_lt_iff₀ ha'] at h2
  refine ⟨h1, ?_⟩
  have : w < (⌊(w:ℚ) / a⌋ + 1) * a := by exact_mod_cast h2
  exact_mod_cast this

theorem floor_of {t : ℚ} {f a : ℤ} (ha : 0 < a) (h1 : (f:ℚ) * a ≤ t * a) (h2 : t * a < (f + 1 : ℚ) * a) : ⌊t⌋ = f := by
  have ha' : (0:ℚ) < a := by exact_mod_cast ha
  rw [Int.floor_eq_iff]
  exact ⟨le_of_mul_le_mul_right h1 ha', lt_of_mul_lt_mul_right h2 ha'.le⟩

/-- Signs don't matter. -/
theorem quot_sign {w x : ℤ} (hx : x ≠ 0) : ∃ m a : ℤ, 0 < a ∧ a = |x| ∧ |m| = |w| ∧ (w:ℚ) / x = (m:ℚ) / a ∧ (x = a ∧ w = m ∨ x = -a ∧ w = -m) := by
  rcases lt_or_gt_of_ne hx with h | h
  · refine ⟨-w, -x, by omega, (abs_of_neg h).symm, abs_neg w, ?_, .inr ⟨by omega, by omega⟩⟩
    push_cast
    rw [neg_div_neg_eq]
  · exact ⟨w, x, h, (abs_of_pos h).symm, rfl, rfl, .inl ⟨rfl, rfl⟩⟩

/-- A rounded quotient of exact integers has the right floor. -/
theorem floor_div {p : ℕ} {w x : ℤ} (hx : x ≠ 0) (hw : |w| < 2^p) : ⌊rnd p ((w:ℚ) / x)⌋ = ⌊(w:ℚ) / x⌋ := by
  obtain ⟨m, a, ha, _, hm, e, _⟩ := quot_sign (w := w) hx
  rw [e]
  have ha' : (0:ℚ) < a := by exact_mod_cast ha
  have hmw : |(m:ℚ)| < 2^p := by
    have : |m| < 2^p := by omega
    exact_mod_cast this
  obtain ⟨g1, g2⟩ := floor_gap (w := m) ha
  have he := rnd_err p ((m:ℚ) / a)
  generalize hf : ⌊(m:ℚ) / a⌋ = f at *
  by_cases hi : (m:ℚ) = f * a
  · have e2 : (m:ℚ) / a = f := by rw [hi]; field_simp
    rw [e2, rnd_int, Int.floor_intCast]
    have h1 : (|f| : ℚ) ≤ |(m:ℚ)| := by
      rw [hi, abs_mul, abs_of_pos ha']
      have : (1:ℚ) ≤ a := by exact_mod_cast ha
      exact le_mul_of_one_le_right (abs_nonneg _) this
    have : (|f| : ℚ) < 2^p := lt_of_le_of_lt h1 hmw
    exact_mod_cast this
  · have g3 : (f:ℚ) * a + 1 ≤ m := by
      have : f * a < m := lt_of_le_of_ne (by exact_mod_cast g1) (fun h => hi (by rw [← h]; push_cast; ring))
      exact_mod_cast this
    have hp : (0:ℚ) < 2^p := by positivity
    have h1 : |rnd p ((m:ℚ) / a) - m / a| * a < 1 := by
      calc |rnd p ((m:ℚ) / a) - m / a| * a ≤ |(m:ℚ) / a| / 2^p * a := mul_le_mul_of_nonneg_right he ha'.le
        _ = |(m:ℚ)| / 2^p := by rw [abs_div, abs_of_pos ha']; field_simp
        _ < 1 := by rw [div_lt_one hp]; exact hmw
    rw [← abs_of_pos ha', ← abs_mul, abs_of_pos ha', sub_mul, div_mul_cancel₀ _ ha'.ne', abs_lt] at h1
    exact floor_of ha (by linarith [h1.1]) (by linarith [h1.2])

/-- A small dividend and a large divisor, which is rounded itself. -/
theorem floor_div_big {w x : ℤ} (hw : |w| ≤ 2^15) (hx : 2^24 ≤ |x|) : ⌊rnd 24 ((w:ℚ) / rnd 24 x)⌋ = ⌊(w:ℚ) / x⌋ ∧ rnd 24 x ≠ 0 := by
  have hx0 : x ≠ 0 := by rintro rfl; simp at hx
  have hX : (2^24:ℚ) ≤ |(x:ℚ)| := by exact_mod_cast hx
  have hW : |(w:ℚ)| ≤ 2^15 := by exact_mod_cast hw
  have e1 := rnd_err 24 (x:ℚ)
  generalize rnd 24 (x:ℚ) = y at *
  have key : 0 < y * x ∧ 2 * |(w:ℚ)| ≤ |y| := by
    rw [abs_le] at e1
    rcases abs_cases (x:ℚ) with ⟨h, h'⟩ | ⟨h, h'⟩ <;> rw [h] at e1 hX
    · have hy : (2:ℚ)^16 ≤ y := by norm_num at *; linarith [e1.1]
      have : (0:ℚ) < y := by norm_num at hy; linarith
      have hx' : (0:ℚ) < x := by norm_num at hX; linarith
      exact ⟨mul_pos this hx', by rw [abs_of_pos this]; norm_num at *; linarith⟩
    · have hy : y ≤ -(2:ℚ)^16 := by norm_num at *; linarith [e1.2]
      have : y < (0:ℚ) := by norm_num at hy; linarith
      exact ⟨mul_pos_of_neg_of_neg this h', by rw [abs_of_neg this]; norm_num at *; linarith⟩
  obtain ⟨hyx, hyw⟩ := key
  have hy0 : y ≠ 0 := by rintro rfl; simp at hyx
  have hx0' : (x:ℚ) ≠ 0 := by exact_mod_cast hx0
  refine ⟨?_, hy0⟩
  have hq : |(w:ℚ) / y| ≤ 1/2 := by
    rw [abs_div, div_le_iff₀ (abs_pos.2 hy0)]; linarith
  have hq2 : |(w:ℚ) / x| < 1 := by
    rw [abs_div, div_lt_one (abs_pos.2 hx0')]; norm_num at *; linarith
  have hs : (0 ≤ (w:ℚ) / y ∧ 0 ≤ (w:ℚ) / x) ∨ ((w:ℚ) / y < 0 ∧ (w:ℚ) / x < 0) := by
    have e3 : (w:ℚ) / y * y ^ 2 = (w:ℚ) / x * (y * x) := by field_simp
    have y2 : 0 < y ^ 2 := by positivity
    rcases le_or_gt 0 ((w:ℚ) / y) with h | h
    · left; refine ⟨h, ?_⟩
      by_contra hc
      have h4 := mul_neg_of_neg_of_pos (not_le.1 hc) hyx
      have h5 := mul_nonneg h y2.le
      linarith
    · right; refine ⟨h, ?_⟩
      by_contra hc
      have h4 := mul_nonneg (not_lt.1 hc) hyx.le
      have h5 := mul_neg_of_neg_of_pos h y2
      linarith
  have e2 := rnd_err 24 ((w:ℚ) / y)
  generalize rnd 24 ((w:ℚ) / y) = t at *
  generalize (w:ℚ) / y = q at *
  generalize (w:ℚ) / x = q2 at *
  rw [abs_le] at e2
  rw [abs_lt] at hq2
  rcases hs with ⟨h, h2⟩ | ⟨h, h2⟩
  · rw [abs_of_nonneg h] at e2 hq
    rw [(Int.floor_eq_iff (z := 0)).2 ⟨by push_cast; norm_num at e2; linarith [e2.1], by push_cast; norm_num at e2; linarith [e2.2]⟩, (Int.floor_eq_iff (z := 0)).2 ⟨by push_cast; exact h2, by push_cast; linarith [hq2.2]⟩]
  · rw [abs_of_neg h] at e2 hq
    rw [(Int.floor_eq_iff (z := -1)).2 ⟨by push_cast; norm_num at e2; linarith [e2.1], by push_cast; norm_num at e2; linarith [e2.2]⟩, (Int.floor_eq_iff (z := -1)).2 ⟨by push_cast; linarith [hq2.1], by push_cast; linarith⟩]

/-! ## Multiplying by the reciprocal -/

theorem rnd_rel {p : ℕ} {u : ℚ} (hu : 1 / 2^p ≤ u) (q : ℚ) : |rnd p q - q| ≤ u * |q| := by
  refine le_trans (rnd_err p q) ?_
  rw [div_eq_mul_inv, mul_comm, ← one_div]
  exact mul_le_mul_of_nonneg_right hu (abs_nonneg q)

/-- The reciprocal, nearly. -/
theorem recip_near {p : ℕ} {x u : ℚ} (hu : 1 / 2^p ≤ u) (h3 : u ≤ 1/3) (hx : x ≠ 0) : |rnd p (1 / rnd p x) * x - 1| ≤ 3 * u := by
  have hu0 : 0 < u := lt_of_lt_of_le (by positivity) hu
  have e1 := rnd_rel hu x
  have hx' := abs_pos.2 hx
  generalize rnd p x = y at *
  have hy : (1 - u) * |x| ≤ |y| := by
    have := abs_sub_abs_le_abs_sub x y
    rw [abs_sub_comm] at this
    linarith
  have hy' : 0 < |y| := lt_of_lt_of_le (mul_pos (by linarith) hx') hy
  have hy0 : y ≠ 0 := abs_pos.1 hy'
  have e2 := rnd_rel hu (1 / y)
  generalize rnd p (1 / y) = z at *
  have e3 : z * x - 1 = (z - 1 / y) * x + (x - y) / y := by field_simp; ring
  have h4 : |(z - 1 / y) * x| ≤ u * (|x| / |y|) := by
    rw [abs_mul]
    calc _ ≤ u * |1 / y| * |x| := mul_le_mul_of_nonneg_right e2 hx'.le
      _ = u * (|x| / |y|) := by rw [abs_div, abs_one]; ring
  have h5 : |(x - y) / y| ≤ u * (|x| / |y|) := by
    rw [abs_div, abs_sub_comm, div_le_iff₀ hy']
    calc _ ≤ u * |x| := e1
      _ = u * (|x| / |y|) * |y| := by field_simp
  have h6 : |x| / |y| ≤ 3/2 := by
    rw [div_le_iff₀ hy']
    have : (2/3) * |x| ≤ (1 - u) * |x| := mul_le_mul_of_nonneg_right (by linarith) hx'.le
    linarith
  rw [e3]
  have h7 := abs_add_le ((z - 1 / y) * x) ((x - y) / y)
  have h8 : u * (|x| / |y|) ≤ u * (3/2) := mul_le_mul_of_nonneg_left h6 hu0.le
  linarith

/-- The sum before rounding down, times the divisor. -/
theorem recip_floor_near {p : ℕ} {x w m a : ℤ} {u : ℚ} (hp : p ≤ 53) (hu : u = 1 / 2^p) (h3 : u ≤ 1/100) (ha : 0 < a) (hs : x = a ∧ w = m ∨ x = -a ∧ w = -m) (hw : |w| < 2^p) :
    |recipFloor p x w * a - (m + 1/2)| ≤ (7 * |(m:ℚ)| + 6) * u := by
  have ha' : (0:ℚ) < a := by exact_mod_cast ha
  have hu0 : 0 < u := by rw [hu]; positivity
  have hu1 : 1 / 2^p ≤ u := hu.ge
  have hu53 : 1 / 2^53 ≤ u := by
    rw [hu]
    apply one_div_le_one_div_of_le (by positivity)
    exact pow_le_pow_right₀ (by norm_num) hp
  have hx0 : (x:ℚ) ≠ 0 := by
    have : x ≠ 0 := by omega
    exact_mod_cast this
  have hc := recip_near hu1 (by linarith) hx0
  unfold recipFloor
  dsimp only
  rw [rnd_int hw]
  generalize rnd p (1 / rnd p (x:ℚ)) = z at *
  -- the sign
  obtain ⟨c, hc1, hc2, hc3⟩ : ∃ c, |c - 1| ≤ 3 * u ∧ (w:ℚ) * z * a = m * c ∧ |z| * a = |c| := by
    refine ⟨z * x, hc, ?_, ?_⟩
    · rcases hs with ⟨h1, h2⟩ | ⟨h1, h2⟩ <;> rw [h1, h2] <;> push_cast <;> ring
    · rw [abs_mul]
      congr 1
      rcases hs with ⟨h1, h2⟩ | ⟨h1, h2⟩ <;> rw [h1]
      · exact (abs_of_pos ha').symm
      · push_cast; rw [abs_neg]; exact (abs_of_pos ha').symm
  have cb := abs_le.1 hc1
  have hcpos : 0 < c := by linarith [cb.1]
  rw [abs_of_pos hcpos] at hc3
  -- the product
  have e1 := rnd_rel hu1 ((w:ℚ) * z)
  generalize rnd p ((w:ℚ) * z) = P at *
  have p1 : |P * a - m * c| ≤ u * (|(m:ℚ)| * c) := by
    rw [← hc2, ← sub_mul, abs_mul, abs_of_pos ha']
    have : |(m:ℚ)| * c = |(w:ℚ) * z| * a := by
      rw [← abs_of_pos hcpos, ← abs_mul, ← hc2, abs_mul, abs_of_pos ha']
    rw [this, ← mul_assoc]
    exact mul_le_mul_of_nonneg_right e1 ha'.le
  have M0 := abs_nonneg (m:ℚ)
  have p2 : |P * a - m| ≤ 5 * u * |(m:ℚ)| := by
    have h1 : |(m:ℚ) * c - m| ≤ |(m:ℚ)| * (3 * u) := by
      rw [show (m:ℚ) * c - m = m * (c - 1) by ring, abs_mul]
      exact mul_le_mul_of_nonneg_left hc1 M0
    have h2 := abs_add_le (P * a - m * c) ((m:ℚ) * c - m)
    rw [show P * a - m * c + ((m:ℚ) * c - m) = P * a - m by ring] at h2
    have h4 : |(m:ℚ)| * c ≤ |(m:ℚ)| * 2 := mul_le_mul_of_nonneg_left (by linarith [cb.2]) M0
    have h5 : u * (|(m:ℚ)| * c) ≤ u * (|(m:ℚ)| * 2) := mul_le_mul_of_nonneg_left h4 hu0.le
    linarith
  -- the offset
  have e2 := rnd_rel hu53 (1/2 * |z|)
  generalize rnd 53 (1/2 * |z|) = o1 at *
  have e3 := rnd_rel hu1 o1
  generalize rnd p o1 = o at *
  have z0 := abs_nonneg z
  have o1p : |o1 * a - c / 2| ≤ u * (c / 2) := by
    rw [show o1 * a - c / 2 = (o1 - 1/2 * |z|) * a by rw [← hc3]; ring, abs_mul, abs_of_pos ha', show u * (c/2) = u * (1/2 * |z|) * a by rw [← hc3]; ring]
    rw [abs_of_nonneg (by positivity : (0:ℚ) ≤ 1/2 * |z|)] at e2
    exact mul_le_mul_of_nonneg_right e2 ha'.le
  have op : |o * a - o1 * a| ≤ u * |o1 * a| := by
    rw [← sub_mul, abs_mul, abs_mul, abs_of_pos ha', ← mul_assoc]
    exact mul_le_mul_of_nonneg_right e3 ha'.le
  have uc : u * (c / 2) ≤ u * (3/4) := mul_le_mul_of_nonneg_left (by linarith [cb.2]) hu0.le
  have o1b := abs_le.1 o1p
  have o1s : |o1 * a| ≤ 1 := by rw [abs_le]; constructor <;> linarith [o1b.1, o1b.2, cb.1, cb.2]
  have o2 : |o * a - 1/2| ≤ 4 * u := by
    have h1 : u * |o1 * a| ≤ u * 1 := mul_le_mul_of_nonneg_left o1s hu0.le
    have ob := abs_le.1 op
    rw [abs_le]
    constructor <;> linarith [o1b.1, o1b.2, cb.1, cb.2, ob.1, ob.2]
  -- the sum
  have e4 := rnd_rel hu1 (P + o)
  generalize rnd p (P + o) = t at *
  have s1 : |t * a - (P + o) * a| ≤ u * |(P + o) * a| := by
    rw [← sub_mul, abs_mul, abs_mul, abs_of_pos ha', ← mul_assoc]
    exact mul_le_mul_of_nonneg_right e4 ha'.le
  have pb := abs_le.1 p2
  have ob := abs_le.1 o2
  have mb := abs_le.1 (le_refl |(m:ℚ)|)
  have uM : u * |(m:ℚ)| ≤ 1/100 * |(m:ℚ)| := mul_le_mul_of_nonneg_right h3 M0
  have s2 : |(P + o) * a| ≤ 2 * |(m:ℚ)| + 2 := by
    rw [add_mul, abs_le]
    constructor <;> linarith [pb.1, pb.2, ob.1, ob.2, mb.1, mb.2]
  have s3 : u * |(P + o) * a| ≤ u * (2 * |(m:ℚ)| + 2) := mul_le_mul_of_nonneg_left s2 hu0.le
  have sb := abs_le.1 s1
  rw [add_mul] at sb
  rw [abs_le]
  rw [add_mul] at s3
  constructor <;> linarith [pb.1, pb.2, ob.1, ob.2, sb.1, sb.2]

/-- Multiplication by the reciprocal gives the right quotient. -/
theorem recip_floor {p : ℕ} {x w : ℤ} (hp : p ≤ 53) (hp2 : 7 ≤ p) (hx : x ≠ 0) (hw : 14 * |w| + 12 < 2^p) : ⌊recipFloor p x w⌋ = ⌊(w:ℚ) / x⌋ := by
  obtain ⟨m, a, ha, _, hm, e, hs⟩ := quot_sign (w := w) hx
  have h100 : (1:ℚ) / 2^p ≤ 1/100 := by
    apply one_div_le_one_div_of_le (by norm_num)
    calc (100:ℚ) ≤ 2^7 := by norm_num
      _ ≤ 2^p := pow_le_pow_right₀ (by norm_num) hp2
  have hw0 := abs_nonneg w
  have h := recip_floor_near hp rfl h100 ha hs (by omega)
  rw [e]
  obtain ⟨g1, g2⟩ := floor_gap (w := m) ha
  have hb : (7 * |(m:ℚ)| + 6) * (1 / 2^p) < 1/2 := by
    have h1 : 14 * |m| + 12 < 2^p := by omega
    have h2 : 14 * |(m:ℚ)| + 12 < 2^p := by exact_mod_cast h1
    rw [mul_one_div, div_lt_iff₀ (by positivity)]
    linarith
  have h' := abs_le.1 h
  exact floor_of ha (by linarith [h'.1]) (by linarith [h'.2])

end Verif.Modulus
