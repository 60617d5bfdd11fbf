import Verif.Rand.Perm
/-! # Random numbers in a range -/
namespace Verif.Rand
open Verif.Bits Verif.Fold Verif.Slash Verif.Select

theorem toF64_small (n : Nat) (h : n < 2^53) : toF64 n = n := by
  unfold toF64
  have : n.log2 - 52 = 0 := by
    by_cases h0 : n = 0
    · subst h0; decide
    · have := (Nat.log2_lt h0).2 h
      omega
  dsimp only
  rw [this, Nat.pow_zero, Nat.mod_one, Nat.div_one, if_neg (by omega), Nat.mul_one]

theorem pow_of_and (m : Nat) (h0 : 1 < m) (h1 : m < 2^32) (h : m &&& (m - 1) = 0) : ∃ e : Fin 32, m = 2 ^ e.val := by
  obtain ⟨e, he⟩ := (Nat.and_sub_one_eq_zero_iff_isPowerOfTwo (by omega)).1 h
  refine ⟨⟨e, ?_⟩, he⟩
  rw [he] at h1
  exact (Nat.pow_lt_pow_iff_right (by decide)).1 h1

theorem mask_table : ∀ e : Fin 32, ∀ k : Fin 64, k.val * 2 ^ (rangeType (2 ^ e.val)).log < 64 → 1 ≤ e.val →
    ((maskOf (rangeType (2 ^ e.val)) (2 ^ e.val)) >>> (k.val * 2 ^ (rangeType (2 ^ e.val)).log)).toNat % 2 ^ 2 ^ (rangeType (2 ^ e.val)).log ≤ 2 ^ e.val - 1 := by
  decide +kernel

theorem log_le (t : El) : t.log ≤ 6 := by cases t <;> decide

theorem pow_log (t : El) : 64 = 2 ^ t.log * 2 ^ (6 - t.log) := by cases t <;> rfl

theorem offset (t : El) (i : Nat) : ∃ k, k < 64 ∧ i * 2 ^ t.log % 64 = k * 2 ^ t.log := by
  refine ⟨i % 2 ^ (6 - t.log), ?_, ?_⟩
  · have h1 := Nat.mod_lt i (Nat.two_pow_pos (6 - t.log))
    have h2 : 2 ^ (6 - t.log) ≤ 2 ^ 6 := Nat.pow_le_pow_right (by decide) (by omega)
    omega
  · have h := pow_log t
    rw [Nat.mul_comm i, Nat.mul_comm (i % _), ← Nat.mul_mod_mul_left, ← h]

theorem unpack_lt (rnd : Nat → Word) (max am n : Nat) (h0 : 1 < max) (h1 : max < 2^32) (h : max &&& (max - 1) = 0) :
    ∀ v ∈ unpack (rangeType max) am ((List.range n).map fun i => rnd i &&& maskOf (rangeType max) max), v < max := by
  obtain ⟨e, rfl⟩ := pow_of_and max h0 h1 h
  have he : 1 ≤ e.val := by
    rcases Nat.eq_zero_or_pos e.val with hh | hh
    · rw [hh] at h0; omega
    · exact hh
  intro v hv
  unfold unpack at hv
  obtain ⟨i, -, rfl⟩ := List.mem_map.1 hv
  obtain ⟨k, hk, ek⟩ := offset (rangeType (2 ^ e.val)) i
  have hlt := Nat.mod_lt (i * 2 ^ (rangeType (2 ^ e.val)).log) (show 0 < 64 by decide)
  rw [ek] at hlt ⊢
  have hpos := Nat.two_pow_pos e.val
  rw [List.getD_eq_getElem?_getD, List.getElem?_map]
  generalize i * 2 ^ (rangeType (2 ^ e.val)).log / 64 = q
  by_cases hq : q < n
  · rw [List.getElem?_range hq, Option.map_some, Option.getD_some]
    have key := mask_table e ⟨k, hk⟩ hlt he
    dsimp only at key
    rw [BitVec.toNat_ushiftRight] at key
    rw [BitVec.toNat_ushiftRight, BitVec.toNat_and, Nat.shiftRight_and_distrib, Nat.and_mod_two_pow]
    exact Nat.lt_of_le_of_lt (Nat.le_trans Nat.and_le_right key) (by omega)
  · rw [List.getElem?_eq_none (by simpa using hq), Option.map_none, Option.getD_none]
    simpa using hpos

theorem rangeType_ne (max : Nat) (h : rangeType max ≠ .f64) : max ≤ 2^31 := by
  unfold rangeType at h
  by_cases hc : max > 2^31
  · rw [if_pos hc] at h; exact absurd rfl h
  · omega

theorem rangeType_fits (max : Nat) (h1 : 1 < max) (h : rangeType max ≠ .f64) : max ≤ 2 ^ 2 ^ (rangeType max).log := by
  have := rangeType_ne max h
  unfold rangeType
  rw [if_neg (by omega)]
  by_cases c : max > 128
  · rw [if_pos c]
    by_cases c2 : max > 32768
    · rw [if_pos c2]; show max ≤ 2^32; omega
    · rw [if_neg c2]; show max ≤ 2^16; omega
  · rw [if_neg c]
    by_cases c2 : max ≠ 2
    · rw [if_pos c2]; show max ≤ 2^8; omega
    · rw [if_neg c2]; show max ≤ 2^1; omega

theorem rangeMany_ok (rnd : Nat → Word) (am max : Nat) (h1 : 0 < max) (h2 : max < 2^53) (hfit : (am + 64 ≤ 2^32 ∧ am * 2 ^ (rangeType max).log + 64 ≤ 8 * 2^32) ∨ 2^31 < max) :
    ∃ r, rangeMany rnd am max = some (.ok r) ∧ r.length = am ∧ ∀ v ∈ r, v < max := by
  unfold rangeMany
  by_cases c1 : max = 1
  · rw [if_pos c1]
    exact ⟨_, rfl, List.length_replicate, fun v hv => by rw [List.eq_of_mem_replicate hv, c1]; decide⟩
  rw [if_neg c1]
  dsimp only
  by_cases ct : rangeType max = .f64
  · rw [if_pos ct, if_neg (by omega)]
    refine ⟨_, rfl, by simp, fun v hv => ?_⟩
    obtain ⟨i, -, rfl⟩ := List.mem_map.1 hv
    have := wy2u0k_lt (rnd i) max (by omega)
    rw [toF64_small _ (by omega)]
    exact this
  rw [if_neg ct]
  have hm := rangeType_ne max ct
  have hfit : am + 64 ≤ 2^32 ∧ am * 2 ^ (rangeType max).log + 64 ≤ 8 * 2^32 := by
    rcases hfit with h | h
    · exact h
    · omega
  have hper : ((am + (64 / 2 ^ (rangeType max).log - 1)) % 2^32) / (64 / 2 ^ (rangeType max).log) * 8 < 2^32 ∧
      am * 2 ^ (rangeType max).log ≤ ((am + (64 / 2 ^ (rangeType max).log - 1)) % 2^32) / (64 / 2 ^ (rangeType max).log) * 8 * 8 := by
    revert hfit
    cases h : rangeType max <;> intro hfit
    · show (am + (64 / 2 ^ 0 - 1)) % 2^32 / (64 / 2 ^ 0) * 8 < 2^32 ∧ am * 2 ^ 0 ≤ (am + (64 / 2 ^ 0 - 1)) % 2^32 / (64 / 2 ^ 0) * 8 * 8
      omega
    · have : am * 2 ^ 3 + 64 ≤ 8 * 2^32 := hfit.2
      show (am + (64 / 2 ^ 3 - 1)) % 2^32 / (64 / 2 ^ 3) * 8 < 2^32 ∧ am * 2 ^ 3 ≤ (am + (64 / 2 ^ 3 - 1)) % 2^32 / (64 / 2 ^ 3) * 8 * 8
      omega
    · have : am * 2 ^ 4 + 64 ≤ 8 * 2^32 := hfit.2
      show (am + (64 / 2 ^ 4 - 1)) % 2^32 / (64 / 2 ^ 4) * 8 < 2^32 ∧ am * 2 ^ 4 ≤ (am + (64 / 2 ^ 4 - 1)) % 2^32 / (64 / 2 ^ 4) * 8 * 8
      omega
    · have : am * 2 ^ 5 + 64 ≤ 8 * 2^32 := hfit.2
      show (am + (64 / 2 ^ 5 - 1)) % 2^32 / (64 / 2 ^ 5) * 8 < 2^32 ∧ am * 2 ^ 5 ≤ (am + (64 / 2 ^ 5 - 1)) % 2^32 / (64 / 2 ^ 5) * 8 * 8
      omega
    · exact absurd h ct
  rw [Nat.mod_eq_of_lt hper.1]
  by_cases c2 : max &&& (max - 1) ≠ 0
  · rw [if_pos c2, if_pos hper.2]
    refine ⟨_, rfl, by simp, fun v hv => ?_⟩
    obtain ⟨i, -, rfl⟩ := List.mem_map.1 hv
    have h3 := wy2u0k_lt (rnd i) max (by omega)
    exact Nat.lt_of_le_of_lt (Nat.mod_le _ _) h3
  · rw [if_neg c2, if_pos ⟨Nat.le_refl _, hper.2⟩]
    refine ⟨_, rfl, by simp [unpack], unpack_lt rnd max am _ (by omega) (by omega) (Decidable.not_not.1 c2)⟩

end Verif.Rand
