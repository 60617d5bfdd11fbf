import Verif.Ffi.Model
/-
Lemmas for C80.
-/
namespace Verif.Ffi

/-! ### Bytes -/

theorem store_out : ∀ (n : Nat) (m : Mem) (a : Int) (v : Nat) (b : Int),
    b < a ∨ a + n ≤ b → store m a n v b = m b
  | 0, _, _, _, _, _ => rfl
  | n + 1, m, a, v, b, h => by
    rw [store, store_out n _ _ _ _ (by omega)]
    exact if_neg (by omega)

theorem load_congr : ∀ (n : Nat) (m m' : Mem) (a : Int),
    (∀ b, a ≤ b → b < a + n → m b = m' b) → load m a n = load m' a n
  | 0, _, _, _, _ => rfl
  | n + 1, m, m', a, h => by
    rw [load, load, h a (by omega) (by omega), load_congr n m m' (a + 1) (fun b h1 h2 => h b (by omega) (by omega))]

theorem load_store : ∀ (n : Nat) (m : Mem) (a : Int) (v : Nat),
    load (store m a n v) a n = v % 256 ^ n
  | 0, _, _, v => by rw [load, Nat.pow_zero, Nat.mod_one]
  | n + 1, m, a, v => by
    rw [load, store, load_store n, store_out n _ _ _ _ (by omega), if_pos rfl, BitVec.toNat_ofNat,
      show 256 ^ (n + 1) = 256 * 256 ^ n from Nat.pow_succ', Nat.mod_mul]

theorem load_lt : ∀ (n : Nat) (m : Mem) (a : Int), load m a n < 256 ^ n
  | 0, _, _ => by rw [load]; decide
  | n + 1, m, a => by
    have h1 := load_lt n m (a + 1)
    have h2 := (m a).isLt
    rw [load, Nat.pow_succ]
    omega

/-- Loading fewer bytes than have been stored. -/
theorem load_prefix (n k : Nat) (hk : k ≤ n) (m : Mem) (a : Int) (v : Nat) :
    load (store m a n v) a k = v % 256 ^ k := by
  induction k generalizing n m a v with
  | zero => rw [load, Nat.pow_zero, Nat.mod_one]
  | succ k ih =>
    obtain ⟨n', rfl⟩ : ∃ n', n = n' + 1 := ⟨n - 1, by omega⟩
    rw [load, store, ih n' (by omega), store_out n' _ _ _ _ (by omega), if_pos rfl, BitVec.toNat_ofNat,
      show 256 ^ (k + 1) = 256 * 256 ^ k from Nat.pow_succ', Nat.mod_mul]

theorem load_copy8 (junk : Nat) (m : Mem) (a : Int) (n p : Nat) (hn : n ≤ 8) :
    load (copy8 junk m a n p) a n = p % 256 ^ n := by
  rw [copy8, load_prefix 8 n hn, Nat.add_mul_mod_self_left, Nat.mod_mod]

/-! ### Numbers -/

theorem asInt_ofInt (i : Int) (h : i.natAbs < 2 ^ 53) : asInt (ofInt i) = some i := by
  unfold ofInt
  by_cases h0 : i.natAbs = 0
  · rw [if_pos h0]
    have : i = 0 := by omega
    subst this
    decide
  · rw [if_neg h0]
    show asInt (BitVec.ofNat 64 ((if i < 0 then 2 ^ 63 else 0) + (i.natAbs.log2 + 1023) * 2 ^ 52 +
      (i.natAbs * 2 ^ (52 - i.natAbs.log2) - 2 ^ 52))) = some i
    have hl1 : 2 ^ i.natAbs.log2 ≤ i.natAbs := Nat.log2_self_le h0
    have hl2 : i.natAbs < 2 ^ (i.natAbs.log2 + 1) := Nat.lt_log2_self
    have hl3 : i.natAbs.log2 < 53 := (Nat.log2_lt h0).2 h
    generalize hl : i.natAbs.log2 = l at *
    have hp : 2 ^ l * 2 ^ (52 - l) = 2 ^ 52 := by rw [← Nat.pow_add]; congr 1; omega
    have hA : 2 ^ 52 ≤ i.natAbs * 2 ^ (52 - l) := by
      rw [← hp]; exact Nat.mul_le_mul_right _ hl1
    have hB : i.natAbs * 2 ^ (52 - l) < 2 ^ 53 := by
      have : 2 ^ (l + 1) * 2 ^ (52 - l) = 2 ^ 53 := by rw [← Nat.pow_add]; congr 1; omega
      rw [← this]; exact Nat.mul_lt_mul_of_pos_right hl2 (Nat.two_pow_pos _)
    have hpos : 0 < 2 ^ (52 - l) := Nat.two_pow_pos _
    have hdiv : i.natAbs * 2 ^ (52 - l) / 2 ^ (52 - l) = i.natAbs := Nat.mul_div_cancel _ hpos
    have hmod : i.natAbs * 2 ^ (52 - l) % 2 ^ (52 - l) = 0 := Nat.mul_mod_left _ _
    generalize hP : i.natAbs * 2 ^ (52 - l) = P at *
    have key : ∀ s : Nat, s ≤ 1 → 
        let x := BitVec.ofNat 64 (s * 2 ^ 63 + (l + 1023) * 2 ^ 52 + (P - 2 ^ 52))
        x.toNat / 2 ^ 63 = s ∧ x.toNat / 2 ^ 52 % 2048 = l + 1023 ∧ x.toNat % 2 ^ 52 = P - 2 ^ 52 := by
      intro s hs
      simp only [BitVec.toNat_ofNat]
      have : s * 2 ^ 63 + (l + 1023) * 2 ^ 52 + (P - 2 ^ 52) < 2 ^ 64 := by omega
      rw [Nat.mod_eq_of_lt this]
      refine ⟨?_, ?_, ?_⟩ <;> omega
    by_cases hneg : i < 0
    · simp only [if_pos hneg]
      have k := key 1 (by decide)
      simp only [Nat.one_mul] at k
      obtain ⟨k1, k2, k3⟩ := k
      unfold asInt
      simp only [k1, k2, k3]
      rw [if_neg (by omega), if_neg (by omega)]
      have hP2 : 2 ^ 52 + (P - 2 ^ 52) = P := by omega
      rw [hP2]
      by_cases h52 : 1075 ≤ l + 1023
      · have : l = 52 := by omega
        subst this
        rw [if_pos h52]
        simp at hP ⊢
        omega
      · have he : 1075 - (l + 1023) = 52 - l := by omega
        rw [if_neg h52, he, if_pos hmod, hdiv]
        simp
        omega
    · simp only [if_neg hneg]
      have k := key 0 (by decide)
      simp only [Nat.zero_mul] at k
      obtain ⟨k1, k2, k3⟩ := k
      unfold asInt
      simp only [k1, k2, k3]
      rw [if_neg (by omega), if_neg (by omega)]
      have hP2 : 2 ^ 52 + (P - 2 ^ 52) = P := by omega
      rw [hP2]
      by_cases h52 : 1075 ≤ l + 1023
      · have : l = 52 := by omega
        subst this
        rw [if_pos h52]
        simp at hP ⊢
        omega
      · have he : 1075 - (l + 1023) = 52 - l := by omega
        rw [if_neg h52, he, if_pos hmod, hdiv]
        simp
        omega

theorem intIn_some {lo hi : Int} {v : V} {i : Int} (h : intIn lo hi v = some i) :
    ∃ x, v = .num x ∧ asInt x = some i ∧ lo ≤ i ∧ i ≤ hi := by
  unfold intIn at h
  split at h
  · rename_i x
    split at h
    · rename_i j hj
      split at h
      · rename_i hr
        injection h with h
        subst h
        exact ⟨x, rfl, hj, hr.1, hr.2⟩
      · exact nomatch h
    · exact nomatch h
  · exact nomatch h

theorem intIn_iff (lo hi : Int) (v : V) :
    (∃ i, intIn lo hi v = some i) ↔ ∃ x, v = .num x ∧ InRange lo hi x := by
  constructor
  · rintro ⟨i, h⟩
    obtain ⟨x, h1, h2, h3, h4⟩ := intIn_some h
    exact ⟨x, h1, i, h2, h3, h4⟩
  · rintro ⟨x, rfl, i, h2, h3, h4⟩
    refine ⟨i, ?_⟩
    rw [intIn, h2]
    exact if_pos ⟨h3, h4⟩

theorem wrap_lt (b : Nat) (i : Int) : wrap b i < 2 ^ b := by
  unfold wrap
  have h1 := Int.emod_lt_of_pos i (b := ((2 ^ b : Nat) : Int)) (by have := Nat.two_pow_pos b; omega)
  have h2 := Int.emod_nonneg i (b := ((2 ^ b : Nat) : Int)) (by have := Nat.two_pow_pos b; omega)
  omega

theorem wrap_pos (b : Nat) (i : Int) (h0 : 0 ≤ i) (h1 : i < (2 ^ b : Nat)) : (wrap b i : Int) = i := by
  unfold wrap
  rw [Int.emod_eq_of_lt h0 h1]
  omega

theorem signed_wrap (b : Nat) (hb : 0 < b) (i : Int) (h0 : -((2 ^ (b - 1) : Nat) : Int) ≤ i)
    (h1 : i < (2 ^ (b - 1) : Nat)) : signed b (wrap b i) = i := by
  have hp : 2 ^ b = 2 * 2 ^ (b - 1) := by
    obtain ⟨c, rfl⟩ : ∃ c, b = c + 1 := ⟨b - 1, by omega⟩
    rw [Nat.pow_succ, Nat.add_sub_cancel]; omega
  unfold signed wrap
  rw [hp]
  generalize 2 ^ (b - 1) = q at *
  by_cases hn : i < 0
  · have : i % ((2 * q : Nat) : Int) = i + (2 * q : Nat) := by
      rw [← Int.add_emod_right, Int.emod_eq_of_lt (by omega) (by omega)]
    rw [this, if_pos (by omega)]
    omega
  · rw [Int.emod_eq_of_lt (by omega) (by omega), if_neg (by omega)]
    omega

theorem sameNum_of (x : BitVec 64) (i : Int) (h : asInt x = some i) (hb : i.natAbs < 2 ^ 53) :
    SameNum x (ofInt i) := .inr ⟨i, h, asInt_ofInt i hb⟩

end Verif.Ffi
