import Verif.Arith.ModModel
namespace Verif.Arith.Pow2
open Verif.Bits

theorem lane_bit (w : Nat) (m : Nat → Word) (j b : Nat) (hb : b < w) (hw : w ∣ 64) :
    (lane w m j).getLsbD b = bitF m (j*w + b) := by
  obtain ⟨c, hc⟩ := hw
  have hwp : 0 < w := by omega
  -- the lane does not straddle a word
  have h1 : j*w % 64 + b < 64 := by
    have : j*w % 64 = (j % c) * w := by rw [hc, Nat.mul_comm w c, Nat.mul_mod_mul_right]
    rw [this]
    have hcp : 0 < c := by rcases Nat.eq_zero_or_pos c with h | h; · subst h; omega
                           · exact h
    have h2 : j % c + 1 ≤ c := Nat.mod_lt _ hcp
    have h3 := Nat.mul_le_mul_right w h2
    rw [Nat.add_mul, Nat.mul_comm c w, ← hc] at h3
    omega
  unfold lane bitF
  rw [BitVec.getLsbD_setWidth, BitVec.getLsbD_ushiftRight]
  have e1 : (j*w + b)/64 = j*w/64 := by omega
  have e2 : (j*w + b)%64 = j*w%64 + b := by omega
  rw [e1, e2]; simp [hb]

theorem pack_bit (w : Nat) (f : Nat → Int) (i : Nat) : bitF (pack w f) i = (BitVec.ofInt w (f (i/w))).getLsbD (i%w) := by
  unfold bitF pack
  have : i % 64 < 64 := by omega
  rw [BitVec.getLsbD_setWidth, BitVec.getLsbD_ofBoolListLE]
  simp only [this, decide_true, Bool.true_and]
  rw [List.getD_eq_getElem?_getD, List.getElem?_map, List.getElem?_range this]
  have e : 64*(i/64) + i%64 = i := by omega
  simp [e]

theorem lane_pack (w : Nat) (f : Nat → Int) (j : Nat) (hw : w ∣ 64) : lane w (pack w f) j = BitVec.ofInt w (f j) := by
  apply BitVec.eq_of_getLsbD_eq
  intro b hb
  rw [lane_bit w _ j b hb hw, pack_bit]
  have e1 : (j*w + b)/w = j := by
    rw [Nat.add_comm, Nat.add_mul_div_right _ _ (by omega), Nat.div_eq_of_lt hb]; omega
  have e2 : (j*w + b)%w = b := by
    rw [Nat.add_comm, Nat.add_mul_mod_self_right, Nat.mod_eq_of_lt hb]
  rw [e1, e2]

theorem ITy.dvd (t : ITy) : t.width ∣ 64 := by cases t <;> decide

theorem val_pack (t : ITy) (ht : t ≠ .bit) (f : Nat → Int) (j : Nat)
    (h1 : -2^(t.width-1) ≤ f j) (h2 : f j ≤ 2^(t.width-1) - 1) : t.val (pack t.width f) j = f j := by
  cases t <;> try exact absurd rfl ht
  all_goals
    simp only [ITy.val]
    rw [lane_pack _ _ _ (ITy.dvd _), BitVec.toInt_ofInt]
    simp only [ITy.width] at *
    apply Int.bmod_eq_of_le <;> omega

theorem val_pack_bit (f : Nat → Int) (j : Nat) (h1 : 0 ≤ f j) (h2 : f j ≤ 1) : ITy.bit.val (pack 1 f) j = f j := by
  simp only [ITy.val]
  rw [lane_pack 1 _ _ (by decide), BitVec.toNat_ofInt]
  omega

theorem val_range (t : ITy) (ht : t ≠ .bit) (m j) : -2^(t.width-1) ≤ t.val m j ∧ t.val m j ≤ 2^(t.width-1) - 1 := by
  cases t <;> try exact absurd rfl ht
  all_goals
    simp only [ITy.val]
    generalize lane _ m j = v
    have h1 := BitVec.le_toInt v
    have h2 := BitVec.toInt_lt (x := v)
    exact ⟨h1, by omega⟩

/-- The mask repeats `2^k-1` in every lane. -/
theorem mask_bit (t : ITy) (ht : t ≠ .bit) (k : Nat) (hk : k < t.width) (i : Nat) (hi : i < 64) :
    ((BitVec.ofNat 64 (2^k) - 1#64) * repeatNum t).getLsbD i = decide (i % t.width < k) := by
  cases t
  · exact absurd rfl ht
  · have : ∀ (k : Fin 8) (i : Fin 64), ((BitVec.ofNat 64 (2^k.val) - 1#64) * repeatNum .i8).getLsbD i = decide (i.val % 8 < k) := by
      decide +kernel
    exact this ⟨k, hk⟩ ⟨i, hi⟩
  · have : ∀ (k : Fin 16) (i : Fin 64), ((BitVec.ofNat 64 (2^k.val) - 1#64) * repeatNum .i16).getLsbD i = decide (i.val % 16 < k) := by
      decide +kernel
    exact this ⟨k, hk⟩ ⟨i, hi⟩
  · have : ∀ (k : Fin 32) (i : Fin 64), ((BitVec.ofNat 64 (2^k.val) - 1#64) * repeatNum .i32).getLsbD i = decide (i.val % 32 < k) := by
      decide +kernel
    exact this ⟨k, hk⟩ ⟨i, hi⟩

theorem low_mask_bit (m : Nat) (hm : m < 64) (i : Nat) (hi : i < 64) :
    ((1#64 <<< m) - 1#64).getLsbD i = decide (i < m) := by
  have : ∀ (m : Fin 64) (i : Fin 64), ((1#64 <<< m.val) - 1#64).getLsbD i = decide (i.val < m) := by decide +kernel
  exact this ⟨m, hm⟩ ⟨i, hi⟩

theorem andBytes_bit (r0 x : Nat → Word) (mask : Word) (nb i : Nat) (h : i < 8 * nb) :
    bitF (andBytes r0 x mask nb) i = (bitF x i && mask.getLsbD (i%64)) := by
  unfold bitF andBytes
  by_cases h1 : i/64 < nb/8
  · rw [if_pos h1, BitVec.getLsbD_and]
  · rw [if_neg h1, if_pos (by omega)]
    simp only [BitVec.getLsbD_or, BitVec.getLsbD_and, BitVec.getLsbD_not]
    rw [low_mask_bit _ (by omega) _ (by omega)]
    have : i % 64 < 8 * (nb % 8) := by omega
    simp [this]

theorem and_lane (t : ITy) (ht : t ≠ .bit) (k : Nat) (hk : k < t.width) (r0 x : Nat → Word) (n j : Nat) (hj : j < n) :
    lane t.width (andBytes r0 x ((BitVec.ofNat 64 (2^k) - 1#64) * repeatNum t) (n * (t.width/8))) j =
      lane t.width x j &&& BitVec.ofNat t.width (2^k - 1) := by
  apply BitVec.eq_of_getLsbD_eq
  intro b hb
  have hlt : j * t.width + b < 8 * (n * (t.width/8)) := by cases t <;> simp only [ITy.width] at * <;> first | exact absurd rfl ht | omega
  have hmod : (j * t.width + b) % 64 % t.width = b := by
    rw [Nat.mod_mod_of_dvd _ t.dvd, Nat.add_comm, Nat.add_mul_mod_self_right, Nat.mod_eq_of_lt hb]
  rw [lane_bit _ _ _ _ hb t.dvd, andBytes_bit _ _ _ _ _ hlt, mask_bit t ht k hk _ (by omega), hmod,
    BitVec.getLsbD_and, lane_bit _ _ _ _ hb t.dvd, BitVec.getLsbD_ofNat, Nat.testBit_two_pow_sub_one]
  simp [hb]

theorem and_val (w k : Nat) (hk : k < w) (v : BitVec w) : (v &&& BitVec.ofNat w (2^k - 1)).toInt = v.toInt % 2^k := by
  have hpos : 0 < 2^k := Nat.pow_pos (by omega)
  have hlt : 2^k ≤ 2^(w-1) := Nat.pow_le_pow_right (by omega) (by omega)
  have hw : 2^w = 2 * 2^(w-1) := by rw [← Nat.pow_succ']; congr 1; omega
  have hn : (v &&& BitVec.ofNat w (2^k - 1)).toNat = v.toNat % 2^k := by
    rw [BitVec.toNat_and, BitVec.toNat_ofNat, Nat.mod_eq_of_lt (by omega), Nat.and_two_pow_sub_one_eq_mod]
  have hm : v.toNat % 2^k < 2^k := Nat.mod_lt _ hpos
  rw [BitVec.toInt_eq_toNat_of_lt (by omega), hn]
  have h2 : v.toInt % (2^k : Int) = ((v.toNat : Int) % 2^k) := by
    rw [BitVec.toInt_eq_toNat_bmod]
    have hd : ((2^k : Nat) : Int) ∣ ((2^w : Nat) : Int) := by
      exact_mod_cast Nat.pow_dvd_pow 2 (by omega)
    have := Int.emod_emod_of_dvd ((v.toNat : Int).bmod (2^w)) hd
    have e2 := Int.emod_emod_of_dvd (v.toNat : Int) hd
    rw [Int.bmod_emod] at this
    have e3 : ((2^k : Nat) : Int) = 2^k := by norm_cast
    rw [e3] at this e2
    omega
  rw [h2]; norm_cast

end Verif.Arith.Pow2
