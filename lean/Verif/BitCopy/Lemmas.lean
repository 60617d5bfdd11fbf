import Verif.BitCopy.Model
/-! # Lemmas for bit copy, fill and reverse -/
namespace Verif.BitCopy
open Verif.Bits

/-- Bit `k` of a memory indexed by integers. -/
def bitZ (x : Int → Word) (k : Int) : Bool := (x (k / 64)).getLsbD (k % 64).toNat

theorem READ_bit (x : Int → Word) (d : Int) (ti j : Nat) (hj : j < 64) :
    (READ x d ti).getLsbD j = bitZ x (64 * ti + j + d) := by
  have hd : d = 64 * (d >>> 6) + d % 64 := by
    rw [Int.shiftRight_eq_div_pow]; omega
  unfold READ
  simp only
  generalize hdp : d >>> 6 = dp at *
  obtain ⟨df, hdf⟩ : ∃ df : Nat, d % 64 = df := ⟨(d % 64).toNat, by omega⟩
  have hlt : df < 64 := by omega
  rw [hdf] at hd ⊢
  rw [Int.toNat_natCast]
  unfold bitZ
  by_cases h0 : df = 0
  · rw [if_pos h0]
    have h1 : (64 * (ti:Int) + j + d) / 64 = ti + dp := by omega
    have h2 : (64 * (ti:Int) + j + d) % 64 = j := by omega
    rw [h1, h2, Int.toNat_natCast]
  · rw [if_neg h0, BitVec.getLsbD_or, BitVec.getLsbD_ushiftRight, BitVec.getLsbD_shiftLeft]
    by_cases hc : df + j < 64
    · have h1 : (64 * (ti:Int) + j + d) / 64 = ti + dp := by omega
      have h2 : (64 * (ti:Int) + j + d) % 64 = (df + j : Nat) := by omega
      have h3 : j < 64 - df := by omega
      rw [h1, h2, Int.toNat_natCast]; simp [h3]
    · have h1 : (64 * (ti:Int) + j + d) / 64 = ti + dp + 1 := by omega
      have h2 : (64 * (ti:Int) + j + d) % 64 = (j - (64 - df) : Nat) := by omega
      have h3 : ¬ j < 64 - df := by omega
      rw [h1, h2, Int.toNat_natCast, BitVec.getLsbD_of_ge _ (df + j) (by omega)]
      simp [h3, hj]

theorem mask_bit (q : Nat) (hq : q < 64) (i : Nat) : (mask q).getLsbD i = decide (i < q) := by
  have h2 : (1#64 <<< q).toNat = 2^q := by
    have : 2^q < 2^64 := Nat.pow_lt_pow_right (by decide) hq
    rw [BitVec.toNat_shiftLeft, Nat.shiftLeft_eq, BitVec.toNat_ofNat]; simp; omega
  have h3 : ((1#64 <<< q) - 1#64).toNat = 2^q - 1 := by
    have : 0 < 2^q := Nat.two_pow_pos q
    have : 2^q < 2^64 := Nat.pow_lt_pow_right (by decide) hq
    rw [BitVec.toNat_sub, h2, BitVec.toNat_ofNat]; omega
  rw [mask, BitVec.getLsbD, h3, Nat.testBit_two_pow_sub_one]

theorem store_mem (s : St) (i : Nat) (v : Word) (j : Nat) : (s.store i v).mem j = if j = i then v else s.mem j := rfl

theorem copyWords_mem (x : Int → Word) (d : Int) (n : Nat) : ∀ (s : St) (ti j : Nat),
    (copyWords x d s ti n).mem j = if ti ≤ j ∧ j < ti + n then READ x d j else s.mem j := by
  induction n with
  | zero => intro s ti j; rw [if_neg (by omega)]; rfl
  | succ n ih =>
    intro s ti j
    rw [copyWords, ih, store_mem]
    by_cases h : j = ti
    · subst h; rw [if_neg (by omega), if_pos rfl, if_pos (by omega)]
    · by_cases h2 : ti + 1 ≤ j ∧ j < ti + 1 + n
      · rw [if_pos h2, if_pos (by omega)]
      · rw [if_neg h2, if_neg h, if_neg (by omega)]

theorem copyWords_log (x : Int → Word) (d : Int) (n : Nat) : ∀ (s : St) (ti j : Nat),
    j ∈ (copyWords x d s ti n).log ↔ (ti ≤ j ∧ j < ti + n) ∨ j ∈ s.log := by
  induction n with
  | zero => intro s ti j; simp only [copyWords]; constructor; exact .inr; rintro (h | h); omega; exact h
  | succ n ih =>
    intro s ti j
    rw [copyWords, ih]
    simp only [St.store, List.mem_cons]
    constructor
    · rintro (h | h | h)
      · left; omega
      · left; omega
      · exact .inr h
    · rintro (h | h)
      · by_cases hj : j = ti
        · exact .inr (.inl hj)
        · left; omega
      · exact .inr (.inr h)

theorem fillWords_mem (vx : Word) (n : Nat) : ∀ (s : St) (i j : Nat),
    (fillWords vx s i n).mem j = if i ≤ j ∧ j < i + n then vx else s.mem j := by
  induction n with
  | zero => intro s ti j; rw [if_neg (by omega)]; rfl
  | succ n ih =>
    intro s ti j
    rw [fillWords, ih, store_mem]
    by_cases h : j = ti
    · subst h; rw [if_neg (by omega), if_pos rfl, if_pos (by omega)]
    · by_cases h2 : ti + 1 ≤ j ∧ j < ti + 1 + n
      · rw [if_pos h2, if_pos (by omega)]
      · rw [if_neg h2, if_neg h, if_neg (by omega)]

theorem fillWords_log (vx : Word) (n : Nat) : ∀ (s : St) (i j : Nat),
    j ∈ (fillWords vx s i n).log ↔ (i ≤ j ∧ j < i + n) ∨ j ∈ s.log := by
  induction n with
  | zero => intro s ti j; simp only [fillWords]; constructor; exact .inr; rintro (h | h); omega; exact h
  | succ n ih =>
    intro s ti j
    rw [fillWords, ih]
    simp only [St.store, List.mem_cons]
    constructor
    · rintro (h | h | h)
      · left; omega
      · left; omega
      · exact .inr h
    · rintro (h | h)
      · by_cases hj : j = ti
        · exact .inr (.inl hj)
        · left; omega
      · exact .inr (.inr h)

theorem sel_mask (a b m : Word) (j : Nat) (hj : j < 64) :
    ((a &&& m) ||| (b &&& ~~~m)).getLsbD j = if m.getLsbD j then a.getLsbD j else b.getLsbD j := by
  simp only [BitVec.getLsbD_or, BitVec.getLsbD_and, BitVec.getLsbD_not, hj, decide_true, Bool.true_and]
  cases m.getLsbD j <;> simp

theorem sel_mask' (a b m : Word) (j : Nat) (hj : j < 64) :
    ((a &&& ~~~m) ||| (b &&& m)).getLsbD j = if m.getLsbD j then b.getLsbD j else a.getLsbD j := by
  simp only [BitVec.getLsbD_or, BitVec.getLsbD_and, BitVec.getLsbD_not, hj, decide_true, Bool.true_and]
  cases m.getLsbD j <;> simp

/-- Word `k` of the result of `bit_cpy`, bit `j`. -/
theorem bit_cpy_word (r : Nat → Word) (rs : Nat) (x : Int → Word) (xs l k j : Nat) (hj : j < 64) :
    ((bit_cpy r rs x xs l).mem k).getLsbD j =
      if rs ≤ 64*k+j ∧ 64*k+j < rs+l then bitZ x (64*k + j + ((xs:Int) - rs)) else (r k).getLsbD j := by
  have e1 : rs = 64 * (rs/64) + rs % 64 := by omega
  have e2 : rs + l = 64 * ((rs+l)/64) + (rs+l) % 64 := by omega
  unfold bit_cpy
  simp only [Nat.shiftRight_eq_div_pow, show (2:Nat)^6 = 64 from rfl]
  by_cases hti : rs/64 = (rs+l)/64
  · rw [if_neg (by simpa using hti)]
    by_cases hrs : rs = rs + l
    · rw [if_neg (by omega), if_neg (by omega)]
    · rw [if_pos hrs, store_mem]
      by_cases hk : k = rs/64
      · rw [if_pos hk, sel_mask _ _ _ _ hj, BitVec.getLsbD_xor, mask_bit _ (by omega), mask_bit _ (by omega)]
        rw [READ_bit _ _ _ _ hj, ← hk]
        by_cases ha : j < rs % 64
        · have hb : j < (rs+l) % 64 := by omega
          rw [if_neg (show ¬(_ ∧ _) by omega)]; simp [ha, hb]
        · by_cases hb : j < (rs+l) % 64
          · rw [if_pos (show _ ∧ _ by omega)]; simp [ha, hb]
          · rw [if_neg (show ¬(_ ∧ _) by omega)]; simp [ha, hb]
      · rw [if_neg hk, if_neg (by omega)]
  · rw [if_pos hti]
    by_cases hq : rs % 64 = 0
    · rw [if_neg (show ¬ (rs % 64 ≠ 0) by omega)]
      simp only
      by_cases hp : (rs+l) % 64 = 0
      · rw [if_neg (show ¬ ((rs+l) % 64 ≠ 0) by omega), copyWords_mem]
        by_cases hk : rs/64 ≤ k ∧ k < rs/64 + ((rs+l)/64 - rs/64)
        · rw [if_pos hk, READ_bit _ _ _ _ hj, if_pos (by omega)]
        · rw [if_neg hk, if_neg (by omega)]
      · rw [if_pos hp, store_mem]
        by_cases hk : k = (rs+l)/64
        · rw [if_pos hk, sel_mask _ _ _ _ hj, mask_bit _ (by omega), READ_bit _ _ _ _ hj, copyWords_mem, ← hk,
            if_neg (show ¬(_ ∧ _) by omega)]
          by_cases hb : j < (rs+l) % 64
          · rw [if_pos (show _ ∧ _ by omega)]; simp [hb]
          · rw [if_neg (show ¬(_ ∧ _) by omega)]; simp [hb]
        · rw [if_neg hk, copyWords_mem]
          by_cases hk : rs/64 ≤ k ∧ k < rs/64 + ((rs+l)/64 - rs/64)
          · rw [if_pos hk, READ_bit _ _ _ _ hj, if_pos (by omega)]
          · rw [if_neg hk, if_neg (by omega)]
    · rw [if_pos hq]
      simp only
      by_cases hk0 : k = rs/64
      · have hcopy : ∀ s : St, (copyWords x ((xs:Int) - rs) s (rs/64+1) ((rs+l)/64 - (rs/64+1))).mem k = s.mem k := by
          intro s; rw [copyWords_mem, if_neg (by omega)]
        have hfin : ((if rs/64 = k then 0 else 0) = 0) := by simp
        have : ∀ s : St, (if (rs+l) % 64 ≠ 0 then
            s.store ((rs+l)/64) ((READ x ((xs:Int) - rs) ((rs+l)/64) &&& mask ((rs+l) % 64)) ||| (s.mem ((rs+l)/64) &&& ~~~mask ((rs+l) % 64)))
            else s).mem k = s.mem k := by
          intro s; split
          · rw [store_mem, if_neg (by omega)]
          · rfl
        rw [this, hcopy, store_mem, if_pos hk0, sel_mask' _ _ _ _ hj, mask_bit _ (by omega), READ_bit _ _ _ _ hj, ← hk0]
        by_cases ha : j < rs % 64
        · rw [if_neg (show ¬(_ ∧ _) by omega)]; simp [ha]
        · rw [if_pos (show _ ∧ _ by omega)]; simp [ha]
      · by_cases hp : (rs+l) % 64 = 0
        · rw [if_neg (show ¬ ((rs+l) % 64 ≠ 0) by omega), copyWords_mem]
          by_cases hk : rs/64+1 ≤ k ∧ k < rs/64+1 + ((rs+l)/64 - (rs/64+1))
          · rw [if_pos hk, READ_bit _ _ _ _ hj, if_pos (by omega)]
          · rw [if_neg hk, store_mem, if_neg hk0, if_neg (by omega)]
        · rw [if_pos hp, store_mem]
          by_cases hk : k = (rs+l)/64
          · rw [if_pos hk, sel_mask _ _ _ _ hj, mask_bit _ (by omega), READ_bit _ _ _ _ hj, copyWords_mem, ← hk,
              if_neg (show ¬(_ ∧ _) by omega), store_mem, if_neg hk0]
            by_cases hb : j < (rs+l) % 64
            · rw [if_pos (show _ ∧ _ by omega)]; simp [hb]
            · rw [if_neg (show ¬(_ ∧ _) by omega)]; simp [hb]
          · rw [if_neg hk, copyWords_mem]
            by_cases hk : rs/64+1 ≤ k ∧ k < rs/64+1 + ((rs+l)/64 - (rs/64+1))
            · rw [if_pos hk, READ_bit _ _ _ _ hj, if_pos (by omega)]
            · rw [if_neg hk, store_mem, if_neg hk0, if_neg (by omega)]

theorem range_mask_bit (a b : Nat) (hab : a ≤ b) (hb : b < 64) (j : Nat) :
    ((1#64 <<< b) - (1#64 <<< a)).getLsbD j = decide (a ≤ j ∧ j < b) := by
  have hp : ∀ q, q < 64 → (1#64 <<< q).toNat = 2^q := by
    intro q hq
    have : 2^q < 2^64 := Nat.pow_lt_pow_right (by decide) hq
    rw [BitVec.toNat_shiftLeft, Nat.shiftLeft_eq, BitVec.toNat_ofNat]; simp; omega
  have h3 : ((1#64 <<< b) - (1#64 <<< a)).toNat = 2^b - 2^a := by
    have h1 : 2^a ≤ 2^b := Nat.pow_le_pow_right (by decide) hab
    have h2 : 2^b < 2^64 := Nat.pow_lt_pow_right (by decide) hb
    rw [BitVec.toNat_sub, hp b hb, hp a (by omega)]
    generalize 2^a = A at *; generalize 2^b = B at *; omega
  rw [BitVec.getLsbD, h3]
  have : 2^b - 2^a = (2^(b-a) - 1) <<< a := by
    rw [Nat.shiftLeft_eq, Nat.sub_mul, ← Nat.pow_add, Nat.one_mul]; congr 2; omega
  rw [this, Nat.testBit_shiftLeft, Nat.testBit_two_pow_sub_one, ← Bool.decide_and]
  apply decide_eq_decide.2; omega

theorem put_bit (v : Bool) (w m : Word) (j : Nat) (hj : j < 64) :
    (if v then w ||| m else w &&& ~~~m).getLsbD j = if m.getLsbD j then v else w.getLsbD j := by
  cases v <;> simp only [Bool.false_eq_true, if_false, if_true, BitVec.getLsbD_or, BitVec.getLsbD_and,
    BitVec.getLsbD_not, hj, decide_true, Bool.true_and] <;> cases m.getLsbD j <;> simp

theorem bit_fill_word (p : Nat → Word) (ms : Nat) (v : Bool) (l k j : Nat) (hj : j < 64) :
    ((bit_fill p ms v l).mem k).getLsbD j = if ms ≤ 64*k+j ∧ 64*k+j < ms+l then v else (p k).getLsbD j := by
  have e1 : ms = 64 * (ms/64) + ms % 64 := by omega
  have e2 : ms + l = 64 * ((ms+l)/64) + (ms+l) % 64 := by omega
  unfold bit_fill
  simp only [Nat.shiftRight_eq_div_pow, show (2:Nat)^6 = 64 from rfl]
  by_cases h : ms/64 = (ms+l)/64
  · rw [if_pos h, store_mem]
    by_cases hk : k = ms/64
    · rw [if_pos hk, put_bit _ _ _ _ hj, range_mask_bit _ _ (by omega) (by omega), ← hk]
      by_cases hb : ms % 64 ≤ j ∧ j < (ms+l) % 64
      · rw [if_pos (show _ ∧ _ by omega)]; simp [hb]
      · rw [if_neg (show ¬(_ ∧ _) by omega)]; simp [hb]
    · rw [if_neg hk, if_neg (by omega)]
  · rw [if_neg h, store_mem]
    by_cases hk : k = (ms+l)/64
    · rw [if_pos hk, put_bit _ _ _ _ hj, mask_bit _ (by omega), fillWords_mem, if_neg (show ¬(_ ∧ _) by omega),
        store_mem, if_neg (show ¬ (ms+l)/64 = ms/64 by omega), ← hk]
      by_cases hb : j < (ms+l) % 64
      · rw [if_pos (show _ ∧ _ by omega)]; simp [hb]
      · rw [if_neg (show ¬(_ ∧ _) by omega)]; simp [hb]
    · rw [if_neg hk, fillWords_mem]
      by_cases hk2 : ms/64+1 ≤ k ∧ k < ms/64+1 + ((ms+l)/64 - (ms/64+1))
      · rw [if_pos hk2, if_pos (show _ ∧ _ by omega)]
        cases v
        · simp
        · simp only [if_true]; rw [BitVec.getLsbD_not]
          simp only [hj, decide_true, Bool.true_and, BitVec.getLsbD_zero, Bool.not_false]
      · rw [if_neg hk2, store_mem]
        by_cases hk3 : k = ms/64
        · have hm : (if v = true then p (ms/64) ||| ~~~mask (ms % 64) else p (ms/64) &&& mask (ms % 64)).getLsbD j
              = if (mask (ms % 64)).getLsbD j then (p (ms/64)).getLsbD j else v := by
            cases v <;> simp only [Bool.false_eq_true, if_false, if_true, BitVec.getLsbD_or, BitVec.getLsbD_and,
              BitVec.getLsbD_not, hj, decide_true, Bool.true_and] <;> cases (mask (ms % 64)).getLsbD j <;> simp
          rw [if_pos hk3, hm, mask_bit _ (by omega), ← hk3]
          by_cases hb : j < ms % 64
          · rw [if_neg (show ¬(_ ∧ _) by omega)]; simp [hb]
          · rw [if_pos (show _ ∧ _ by omega)]; simp [hb]
        · rw [if_neg hk3, if_neg (by omega)]

/-! ## Reverse -/

theorem bswap_bit (x : Word) (i : Nat) (hi : i < 64) : (bswap64 x).getLsbD i = x.getLsbD (8 * (7 - i/8) + i % 8) := by
  unfold bswap64
  simp only [BitVec.getLsbD_append, BitVec.getLsbD_extractLsb']
  have h8 : i = 8 * (i/8) + i % 8 := by omega
  have hq : i / 8 < 8 := by omega
  have hr : i % 8 < 8 := by omega
  generalize i / 8 = q at *
  generalize i % 8 = r at *
  subst h8
  match q, hq with
  | 0, _ => rw [if_pos (by omega)]; simp [hr]
  | 1, _ => rw [if_neg (by omega), if_pos (by omega)]; simp [show 8 * 1 + r - 8 = r by omega, hr]
  | 2, _ => rw [if_neg (by omega), if_neg (by omega), if_pos (by omega)]; simp [show 8 * 2 + r - 8 - 8 = r by omega, hr]
  | 3, _ => iterate 3 rw [if_neg (by omega)]
            rw [if_pos (by omega)]; simp [show 8 * 3 + r - 8 - 8 - 8 = r by omega, hr]
  | 4, _ => iterate 4 rw [if_neg (by omega)]
            rw [if_pos (by omega)]; simp [show 8 * 4 + r - 8 - 8 - 8 - 8 = r by omega, hr]
  | 5, _ => iterate 5 rw [if_neg (by omega)]
            rw [if_pos (by omega)]; simp [show 8 * 5 + r - 8 - 8 - 8 - 8 - 8 = r by omega, hr]
  | 6, _ => iterate 6 rw [if_neg (by omega)]
            rw [if_pos (by omega)]; simp [show 8 * 6 + r - 8 - 8 - 8 - 8 - 8 - 8 = r by omega, hr]
  | 7, _ => iterate 7 rw [if_neg (by omega)]
            simp [show 8 * 7 + r - 8 - 8 - 8 - 8 - 8 - 8 - 8 = r by omega, hr]

/-- One exchange step of `bit_reverse64`. -/
theorem swap_bit (c m m' : Word) (s : Nat)
    (h1 : ∀ i : Fin 64, (decide (s ≤ i.val) && m.getLsbD (i.val - s)) = decide (i.val / s % 2 = 1))
    (h2 : ∀ i : Fin 64, m'.getLsbD (s + i.val) = decide (i.val / s % 2 = 0)) (i : Nat) (hi : i < 64) :
    ((c &&& m) <<< s ||| (c &&& m') >>> s).getLsbD i = c.getLsbD (if i / s % 2 = 1 then i - s else s + i) := by
  have a := h1 ⟨i, hi⟩
  have b := h2 ⟨i, hi⟩
  simp only at a b
  rw [BitVec.getLsbD_or, BitVec.getLsbD_shiftLeft, BitVec.getLsbD_and, BitVec.getLsbD_ushiftRight, BitVec.getLsbD_and, b]
  have hd : (!decide (i < s)) = decide (s ≤ i) := by rw [← decide_not]; apply decide_eq_decide.2; omega
  rw [hd]
  by_cases h : i / s % 2 = 1
  · have hn : ¬ i / s % 2 = 0 := by omega
    simp only [h, hn, decide_true, decide_false, Bool.and_false, Bool.or_false, if_true] at a ⊢
    simp only [Bool.and_eq_true] at a
    simp [hi, a.1, a.2]
  · have hn : i / s % 2 = 0 := by omega
    simp only [h, hn, decide_true, decide_false, Bool.and_true, if_false] at a ⊢
    cases hs : decide (s ≤ i)
    · simp
    · rw [hs] at a; simp only [Bool.true_and] at a; simp [a]

theorem bit_reverse64_bit (x : Word) (i : Nat) (hi : i < 64) : (bit_reverse64 x).getLsbD i = x.getLsbD (63 - i) := by
  unfold bit_reverse64
  simp only
  have ex1 : ∀ i : Fin 64, (if i.val / 1 % 2 = 1 then i.val - 1 else 1 + i.val) < 64 := by decide
  have ex2 : ∀ i : Fin 64, (if i.val / 2 % 2 = 1 then i.val - 2 else 2 + i.val) < 64 := by decide
  have ex4 : ∀ i : Fin 64, (if i.val / 4 % 2 = 1 then i.val - 4 else 4 + i.val) < 64 := by decide
  rw [swap_bit _ _ _ 1 (by decide) (by decide) i hi]
  generalize h1 : (if i / 1 % 2 = 1 then i - 1 else 1 + i) = i1
  have hi1 : i1 < 64 := by rw [← h1]; exact ex1 ⟨i, hi⟩
  rw [swap_bit _ _ _ 2 (by decide) (by decide) i1 hi1]
  generalize h2 : (if i1 / 2 % 2 = 1 then i1 - 2 else 2 + i1) = i2
  have hi2 : i2 < 64 := by rw [← h2]; exact ex2 ⟨i1, hi1⟩
  rw [swap_bit _ _ _ 4 (by decide) (by decide) i2 hi2]
  generalize h3 : (if i2 / 4 % 2 = 1 then i2 - 4 else 4 + i2) = i3
  have hi3 : i3 < 64 := by rw [← h3]; exact ex4 ⟨i2, hi2⟩
  rw [bswap_bit x i3 hi3]
  have key : ∀ i : Fin 64,
      (let i1 := if i.val / 1 % 2 = 1 then i.val - 1 else 1 + i.val
       let i2 := if i1 / 2 % 2 = 1 then i1 - 2 else 2 + i1
       let i3 := if i2 / 4 % 2 = 1 then i2 - 4 else 4 + i2
       8 * (7 - i3 / 8) + i3 % 8) = 63 - i.val := by decide
  have := key ⟨i, hi⟩
  simp only [h1, h2, h3] at this
  rw [this]

theorem shiftLoop_eq (sh : Nat) (k : Nat) : ∀ (rp : Nat → Word) (i j : Nat),
    shiftLoop sh rp i k j = if i ≤ j ∧ j < i + k then (rp j >>> sh) ||| (rp (j+1) <<< (64 - sh)) else rp j := by
  induction k with
  | zero => intro rp i j; rw [if_neg (by omega)]; rfl
  | succ k ih =>
    intro rp i j
    rw [shiftLoop, ih]
    by_cases h : j = i
    · subst h; rw [if_neg (by omega), if_pos rfl, if_pos (by omega)]
    · by_cases h2 : i + 1 ≤ j ∧ j < i + 1 + k
      · rw [if_pos h2, if_neg h, if_neg (show ¬ j + 1 = i by omega), if_pos (show _ ∧ _ by omega)]
      · rw [if_neg h2, if_neg h, if_neg (by omega)]

end Verif.BitCopy
