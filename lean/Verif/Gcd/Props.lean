import Verif.Gcd.Lemmas
/-! # C32: •math.GCD and •math.LCM on 64-bit naturals -/
namespace Verif.Gcd

/-- C32. For every pair of 64-bit naturals the function terminates, meets no undefined behaviour, and returns the
greatest common divisor (`Nat.gcd`, with `gcd 0 n = n`). -/
theorem gcd_u64_correct (a b : U64) : ∃ r, gcd_u64 a b = some r ∧ r.toNat = Nat.gcd a.toNat b.toNat := by
  unfold gcd_u64
  by_cases ha : a = 0#64
  · exact ⟨b, by rw [if_pos ha], by subst ha; simp⟩
  by_cases hb : b = 0#64
  · exact ⟨a, by rw [if_neg ha, if_pos hb], by subst hb; simp⟩
  rw [if_neg ha, if_neg hb]
  simp only [CTZ, if_neg ha, if_neg hb]
  have ha0 := ne_zero_toNat ha
  have hb0 := ne_zero_toNat hb
  have ⟨ea, oa⟩ := ctzNat_spec _ ha0
  have ⟨eb, ob⟩ := ctzNat_spec _ hb0
  have hB : (b >>> ctzNat b.toNat).toNat = odd b.toNat := toNat_ushr _ _
  have hle : odd a.toNat ≤ a.toNat := Nat.div_le_self _ _
  have hle2 : odd b.toNat ≤ b.toNat := Nat.div_le_self _ _
  have hprod : odd a.toNat * (b >>> ctzNat b.toNat).toNat < 2^129 := by
    rw [hB]
    have h1 : odd a.toNat * odd b.toNat ≤ 2^64 * 2^64 := Nat.mul_le_mul (by omega) (by omega)
    exact Nat.lt_of_le_of_lt h1 (by decide)
  obtain ⟨r, hr, hg⟩ := gcdLoop_spec 129 a (b >>> ctzNat b.toNat) ha0 (by omega) hprod
  rw [hr]
  refine ⟨_, rfl, ?_⟩
  rw [hB] at hg
  have hmin : (if ctzNat a.toNat < ctzNat b.toNat then ctzNat a.toNat else ctzNat b.toNat)
      = min (ctzNat a.toNat) (ctzNat b.toNat) := by
    split <;> omega
  have key : Nat.gcd a.toNat b.toNat = Nat.gcd (odd a.toNat) (odd b.toNat) * 2 ^ min (ctzNat a.toNat) (ctzNat b.toNat) := by
    conv => lhs; rw [ea, eb]
    exact gcd_pow_split _ _ _ _ oa ob
  have hdvd : Nat.gcd a.toNat b.toNat ≤ a.toNat := Nat.gcd_le_left _ (by omega)
  rw [hmin, BitVec.toNat_shiftLeft, Nat.shiftLeft_eq, hg, ← key]
  have := a.isLt
  omega

/-- C32. LCM returns the least common multiple whenever that fits in 64 bits; in general it is the least common
multiple modulo 2^64. -/
theorem lcm_u64_mod (a b : U64) : ∃ r, lcm_u64 a b = some r ∧ r.toNat = Nat.lcm a.toNat b.toNat % 2^64 := by
  unfold lcm_u64
  by_cases h : a = 0#64 ∨ b = 0#64
  · refine ⟨0#64, by rw [if_pos h], ?_⟩
    rcases h with h | h <;> subst h <;> simp
  · rw [if_neg h]
    simp only [not_or] at h
    obtain ⟨g, hg, hgv⟩ := gcd_u64_correct a b
    have ha0 := ne_zero_toNat h.1
    have hpos : 0 < Nat.gcd a.toNat b.toNat := Nat.gcd_pos_of_pos_left _ (by omega)
    have hg0 : g ≠ 0#64 := by rintro rfl; simp at hgv; omega
    rw [hg]
    simp only [if_neg hg0]
    refine ⟨_, rfl, ?_⟩
    rw [BitVec.toNat_mul, BitVec.toNat_udiv, hgv, Nat.lcm]
    congr 1
    exact Nat.div_mul_right_comm (Nat.gcd_dvd_left _ _) _

theorem lcm_u64_exact (a b : U64) (h : Nat.lcm a.toNat b.toNat < 2^64) :
    ∃ r, lcm_u64 a b = some r ∧ r.toNat = Nat.lcm a.toNat b.toNat := by
  obtain ⟨r, h1, h2⟩ := lcm_u64_mod a b
  exact ⟨r, h1, by rw [h2]; omega⟩

example : ∃ r, gcd_u64 (BitVec.ofNat 64 (2^63)) 0xFFFFFFFFFFFFFFF0#64 = some r ∧ r.toNat = 16 := by
  obtain ⟨r, h1, h2⟩ := gcd_u64_correct (BitVec.ofNat 64 (2^63)) 0xFFFFFFFFFFFFFFF0#64
  exact ⟨r, h1, by rw [h2]; decide⟩
example : Nat.lcm (12#64).toNat (18#64).toNat < 2^64 ∧ Nat.lcm (12#64).toNat (18#64).toNat = 36 := by decide

end Verif.Gcd
