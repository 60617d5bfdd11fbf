import Verif.Modulus.Model
import Mathlib.Tactic.Linarith
import Mathlib.Tactic.Ring
import Mathlib.Tactic.FieldSimp
import Mathlib.Tactic.Positivity
/-!
# Modulus of integers: rounding
-/
namespace Verif.Modulus

theorem near_err (t : ℚ) : |(near t : ℚ) - t| ≤ 1/2 := by
  have h1 := Int.floor_le t
  have h2 := Int.lt_floor_add_one t
  unfold near
  dsimp only
  rw [abs_le]
  split
  · constructor <;> linarith
  · split
    · push_cast; constructor <;> linarith
    · split
      · constructor <;> linarith
      · push_cast; constructor <;> linarith

theorem near_int (n : ℤ) : near (n : ℚ) = n := by
  unfold near
  simp

theorem rnd_err (p : ℕ) (q : ℚ) : |rnd p q - q| ≤ |q| / 2^p := by
  unfold rnd
  by_cases h : q = 0
  · rw [if_pos h, h]; simp
  · rw [if_neg h]
    dsimp only
    have hq : 0 < |q| := abs_pos.2 h
    have h1 := Int.zpow_log_le_self (R := ℚ) (b := 2) (by norm_num) hq
    generalize Int.log 2 |q| = e at *
    have hs : (0:ℚ) < 2 ^ (e + 1 - p) := zpow_pos (by norm_num) _
    have e1 : (2:ℚ) ^ (e + 1 - p) / 2 = 2 ^ e / 2 ^ p := by
      rw [zpow_sub₀ (by norm_num), zpow_add₀ (by norm_num), zpow_one, zpow_natCast]; field_simp
    generalize (2:ℚ) ^ (e + 1 - p) = s at *
    have h2 := near_err (q / s)
    have : (near (q / s) : ℚ) * s - q = ((near (q/s) : ℚ) - q / s) * s := by field_simp
    rw [this, abs_mul, abs_of_pos hs]
    have h3 : |(near (q / s) : ℚ) - q / s| * s ≤ 1/2 * s := mul_le_mul_of_nonneg_right h2 hs.le
    have h4 : (2:ℚ) ^ e / 2 ^ p ≤ |q| / 2 ^ p := by
      apply div_le_div_of_nonneg_right _ (by positivity)
      exact_mod_cast h1
    linarith

theorem rnd_int {p : ℕ} {n : ℤ} (h : |n| < 2^p) : rnd p n = n := by
  unfold rnd
  by_cases h0 : (n:ℚ) = 0
  · rw [if_pos h0, h0]
  · rw [if_neg h0]
    dsimp only
    have hq : 0 < |(n:ℚ)| := abs_pos.2 h0
    have h1 := Int.zpow_log_le_self (R := ℚ) (b := 2) (by norm_num) hq
    have hl : Int.log 2 |(n:ℚ)| < p := by
      rw [← Int.lt_zpow_iff_log_lt (by norm_num) hq, zpow_natCast]
      exact_mod_cast h
    generalize Int.log 2 |(n:ℚ)| = e at *
    obtain ⟨k, hk⟩ : ∃ k : ℕ, (k : ℤ) = p - 1 - e := ⟨(p - 1 - e).toNat, by omega⟩
    have e1 : (2:ℚ) ^ (e + 1 - p) = (2^k)⁻¹ := by
      rw [show e + 1 - p = -(k:ℤ) by omega, zpow_neg, zpow_natCast]
    rw [e1, div_inv_eq_mul, show (n:ℚ) * 2^k = ((n * 2^k : ℤ) : ℚ) by push_cast; ring, near_int]
    push_cast
    field_simp

end Verif.Modulus
