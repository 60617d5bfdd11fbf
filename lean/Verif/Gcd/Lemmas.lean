import Verif.Gcd.Model
/-! # Lemmas for the binary GCD -/
namespace Verif.Gcd

/-- The odd part of a number. -/
def odd (n : Nat) : Nat := n / 2 ^ ctzNat n

theorem ctzNat_spec (n : Nat) (h : n ≠ 0) : n = odd n * 2 ^ ctzNat n ∧ odd n % 2 = 1 := by
  unfold odd
  fun_induction ctzNat n with
  | case1 => omega
  | case2 n h h1 => simp; omega
  | case3 n h h1 ih =>
    have ⟨e, o⟩ := ih (by omega)
    have hp : 2 ^ (1 + ctzNat (n/2)) = 2 * 2 ^ ctzNat (n/2) := by rw [Nat.add_comm, Nat.pow_succ, Nat.mul_comm]
    rw [hp, ← Nat.div_div_eq_div_mul]
    refine ⟨?_, o⟩
    rw [Nat.mul_left_comm, ← e]; omega

theorem ctzNat_unique {n m k : Nat} (h : n = m * 2^k) (hm : m % 2 = 1) : ctzNat n = k := by
  induction k generalizing n with
  | zero => rw [ctzNat]; simp at h; subst h; rw [dif_neg (by omega), if_pos hm]
  | succ k ih =>
    have hm0 : 0 < m := by omega
    have : 0 < m * 2^k := Nat.mul_pos hm0 (Nat.two_pow_pos k)
    rw [Nat.pow_succ, ← Nat.mul_assoc] at h
    rw [ctzNat, dif_neg (by omega), if_neg (by omega), ih (n := n/2) (by omega)]; omega

theorem gcd_odd (a b : Nat) (ha : a ≠ 0) (hb : b % 2 = 1) : Nat.gcd (odd a) b = Nat.gcd a b := by
  have ⟨e, _⟩ := ctzNat_spec a ha
  have hc : Nat.Coprime (2 ^ ctzNat a) b := by
    apply Nat.Coprime.pow_left
    unfold Nat.Coprime
    rw [Nat.gcd_rec, hb]; rfl
  conv => rhs; rw [e]
  exact (Nat.Coprime.gcd_mul_right_cancel (odd a) hc).symm

theorem ctzNat_neg (d : Nat) (h0 : d ≠ 0) (h : d < 2^64) : ctzNat (2^64 - d) = ctzNat d := by
  have ⟨e, o⟩ := ctzNat_spec d h0
  have hk : ctzNat d < 64 := by
    rcases Nat.lt_or_ge (ctzNat d) 64 with h' | h'
    · exact h'
    · have h1 : 2^64 ≤ 2 ^ ctzNat d := Nat.pow_le_pow_right (by decide) h'
      have h2 : 1 * 2 ^ ctzNat d ≤ odd d * 2 ^ ctzNat d := Nat.mul_le_mul_right _ (by omega)
      omega
  obtain ⟨j, hj⟩ : ∃ j, 64 = (j+1) + ctzNat d := ⟨63 - ctzNat d, by omega⟩
  apply ctzNat_unique (m := 2^(j+1) - odd d)
  · rw [Nat.sub_mul, ← e, ← Nat.pow_add, ← hj]
  · have : odd d < 2^(j+1) := by
      apply Nat.lt_of_mul_lt_mul_right (a := 2 ^ ctzNat d)
      rw [← e, ← Nat.pow_add, ← hj]; exact h
    rw [Nat.pow_succ] at this ⊢; omega

theorem toNat_ushr (a : U64) (k : Nat) : (a >>> k).toNat = a.toNat / 2^k := by
  rw [BitVec.toNat_ushiftRight, Nat.shiftRight_eq_div_pow]

theorem odd_le_half (n : Nat) (h0 : n ≠ 0) (h : n % 2 = 0) : odd n * 2 ≤ n := by
  have ⟨e, o⟩ := ctzNat_spec n h0
  cases hk : ctzNat n with
  | zero => rw [hk] at e; simp at e; omega
  | succ k =>
    rw [hk, Nat.pow_succ] at e
    calc odd n * 2 ≤ odd n * (2^k * 2) := Nat.mul_le_mul_left _ (by have := Nat.two_pow_pos k; omega)
      _ = n := e.symm

/-- Loop invariant of the GCD loop. -/
theorem gcdLoop_spec (f : Nat) : ∀ (a b : U64), a.toNat ≠ 0 → b.toNat % 2 = 1 → odd a.toNat * b.toNat < 2^f →
    ∃ r, gcdLoop f a b (ctzNat a.toNat) = some r ∧ r.toNat = Nat.gcd (odd a.toNat) b.toNat := by
  induction f with
  | zero =>
    intro a b ha hb h
    have := (ctzNat_spec _ ha).2
    have : 0 < odd a.toNat * b.toNat := Nat.mul_pos (by omega) (by omega)
    omega
  | succ f ih =>
    intro a b ha hb h
    have ⟨ea, oa⟩ := ctzNat_spec _ ha
    have hA : (a >>> ctzNat a.toNat).toNat = odd a.toNat := toNat_ushr _ _
    generalize hA' : a >>> ctzNat a.toNat = A at hA
    generalize hoA : odd a.toNat = o at *
    have hAlt := A.isLt
    have hblt := b.isLt
    simp only [gcdLoop, hA', BitVec.ult]
    rcases Nat.lt_trichotomy b.toNat A.toNat with hlt | heq | hgt
    · -- b < a
      have hd : b - A ≠ 0#64 := by
        intro h0
        have := congrArg BitVec.toNat h0
        simp only [BitVec.toNat_sub, BitVec.toNat_ofNat] at this; omega
      have hdn : (b - A).toNat = 2^64 - (A.toNat - b.toNat) := by
        rw [BitVec.toNat_sub]; omega
      have hnd : (-(b - A)).toNat = A.toNat - b.toNat := by
        rw [BitVec.toNat_neg, hdn]; omega
      rw [if_neg hd]
      simp only [hlt, decide_true, if_true, CTZ, if_neg hd]
      rw [hdn, ctzNat_neg _ (by omega) (by omega), ← hnd]
      have hhalf := odd_le_half (A.toNat - b.toNat) (by omega) (by omega)
      have hprod : odd (-(b - A)).toNat * b.toNat < 2^f := by
        rw [hnd]
        have h1 : odd (A.toNat - b.toNat) * 2 * b.toNat ≤ (A.toNat - b.toNat) * b.toNat := Nat.mul_le_mul_right _ hhalf
        have h2 : (A.toNat - b.toNat) * b.toNat ≤ o * b.toNat := Nat.mul_le_mul_right _ (by omega)
        rw [Nat.pow_succ] at h
        rw [Nat.mul_right_comm] at h1
        omega
      obtain ⟨r, hr, hg⟩ := ih (-(b - A)) b (by omega) hb hprod
      refine ⟨r, hr, ?_⟩
      rw [hg, hnd, gcd_odd _ _ (by omega) hb, hA, Nat.gcd_sub_right_left_of_dvd _ (by omega) (Nat.dvd_refl _)]
    · have : b = A := BitVec.eq_of_toNat_eq heq
      subst this
      refine ⟨b, by simp, ?_⟩
      rw [← hA, Nat.gcd_self]
    · have hd : b - A ≠ 0#64 := by
        intro h0
        have := congrArg BitVec.toNat h0
        simp only [BitVec.toNat_sub, BitVec.toNat_ofNat] at this; omega
      have hdn : (b - A).toNat = b.toNat - A.toNat := by
        rw [BitVec.toNat_sub]; omega
      rw [if_neg hd]
      have hn : ¬ b.toNat < A.toNat := by omega
      have hn2 : ¬ A.toNat < A.toNat := by omega
      simp only [hn, decide_false, Bool.false_eq_true, if_false, hn2, CTZ, if_neg hd]
      have hhalf := odd_le_half (b.toNat - A.toNat) (by omega) (by omega)
      have hprod : odd (b - A).toNat * A.toNat < 2^f := by
        rw [hdn]
        have h1 : odd (b.toNat - A.toNat) * 2 * A.toNat ≤ (b.toNat - A.toNat) * A.toNat := Nat.mul_le_mul_right _ hhalf
        have h2 : (b.toNat - A.toNat) * A.toNat ≤ b.toNat * A.toNat := Nat.mul_le_mul_right _ (by omega)
        rw [Nat.pow_succ, Nat.mul_comm o, ← hA] at h
        rw [Nat.mul_right_comm] at h1
        omega
      obtain ⟨r, hr, hg⟩ := ih (b - A) A (by omega) (by omega) hprod
      refine ⟨r, hr, ?_⟩
      rw [hg, hdn, gcd_odd _ _ (by omega) (by omega), ← hA, Nat.gcd_sub_right_left_of_dvd _ (by omega) (Nat.dvd_refl _), Nat.gcd_comm]

theorem ne_zero_toNat {a : U64} (h : a ≠ 0#64) : a.toNat ≠ 0 := by
  intro h0; exact h (BitVec.eq_of_toNat_eq (by simpa using h0))

theorem gcd_pow_split (x y j k : Nat) (hx : x % 2 = 1) (hy : y % 2 = 1) :
    Nat.gcd (x * 2^j) (y * 2^k) = Nat.gcd x y * 2 ^ min j k := by
  rcases Nat.le_total j k with h | h
  · obtain ⟨m, rfl⟩ : ∃ m, k = m + j := ⟨k - j, by omega⟩
    rw [Nat.min_eq_left h, Nat.pow_add, ← Nat.mul_assoc, Nat.gcd_mul_right]
    congr 1
    have hc : Nat.Coprime (2 ^ m) x := by
      apply Nat.Coprime.pow_left; unfold Nat.Coprime; rw [Nat.gcd_rec, hx]; rfl
    rw [Nat.gcd_comm, Nat.Coprime.gcd_mul_right_cancel y hc, Nat.gcd_comm]
  · obtain ⟨m, rfl⟩ : ∃ m, j = m + k := ⟨j - k, by omega⟩
    rw [Nat.min_eq_right h, Nat.pow_add, ← Nat.mul_assoc, Nat.gcd_mul_right]
    congr 1
    have hc : Nat.Coprime (2 ^ m) y := by
      apply Nat.Coprime.pow_left; unfold Nat.Coprime; rw [Nat.gcd_rec, hy]; rfl
    exact Nat.Coprime.gcd_mul_right_cancel x hc

end Verif.Gcd
