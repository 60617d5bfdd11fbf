import Verif.Squeeze.Model
import Verif.Bins.Lemmas
/-!
# Squeezing: conversions of doubles, masks, and least types
-/
namespace Verif.Squeeze
open Verif.Bins (ofInt mag frac_lt log2_bounds mag_lt mag_mono ofInt_toNat ofInt_nan ofInt_key key_mono)

/-! ## Equality of elements -/

theorem feq_iff {a b : BitVec 64} : feq a b = true ↔ EqF a b := by
  unfold feq EqF
  simp only [Bool.and_eq_true, Bool.not_eq_true', decide_eq_true_eq, and_assoc]

theorem EqF.symm {a b : BitVec 64} (h : EqF a b) : EqF b a := ⟨h.2.1, h.1, h.2.2.symm⟩
theorem EqF.trans {a b c : BitVec 64} (h : EqF a b) (g : EqF b c) : EqF a c := ⟨h.1, g.2.1, h.2.2.trans g.2.2⟩

theorem Same.refl (v : Val) : Same v v := by
  cases v with
  | num f => exact .inl rfl
  | chr c => exact rfl
  | other i => exact rfl

theorem Same.symm {v w : Val} (h : Same v w) : Same w v := by
  cases v <;> cases w <;> first | exact h.elim | skip
  · rcases h with h | h
    · exact .inl h.symm
    · exact .inr h.symm
  · exact Eq.symm h
  · exact Eq.symm h

theorem Same.trans {u v w : Val} (h : Same u v) (g : Same v w) : Same u w := by
  cases u <;> cases v <;> first | exact h.elim | skip
  · cases w <;> first | exact g.elim | skip
    rcases h with rfl | h
    · exact g
    · rcases g with rfl | g
      · exact .inr h
      · exact .inr (h.trans g)
  · have : _ = _ := h; subst this; exact g
  · have : _ = _ := h; subst this; exact g

theorem Sames.refl : ∀ vs, Sames vs vs
  | [] => .nil
  | v :: vs => .cons (Same.refl v) (Sames.refl vs)

theorem Sames.symm {vs ws} (h : Sames vs ws) : Sames ws vs := by
  induction h with
  | nil => exact .nil
  | cons a _ ih => exact .cons a.symm ih

theorem Sames.trans {us vs ws} (h : Sames us vs) (g : Sames vs ws) : Sames us ws := by
  induction h generalizing ws with
  | nil => exact g
  | cons a _ ih => cases g with | cons b g => exact .cons (a.trans b) (ih g)

theorem Sames.append {as bs cs ds} (h : Sames as bs) (g : Sames cs ds) : Sames (as ++ cs) (bs ++ ds) := by
  induction h with
  | nil => exact g
  | cons a _ ih => exact .cons a ih

theorem Sames.length {vs ws} (h : Sames vs ws) : vs.length = ws.length := by
  induction h with
  | nil => rfl
  | cons _ _ ih => simp only [List.length_cons, ih]

theorem Sames.isEmpty {vs ws} (h : Sames vs ws) : vs.isEmpty = ws.isEmpty := by
  cases h <;> rfl

/-- Elementwise maps of one list. -/
theorem Sames.map {α β} {f : α → Val} {g : β → Val} {k : α → β} : ∀ {xs : List α},
    (∀ x ∈ xs, Same (g (k x)) (f x)) → Sames ((xs.map k).map g) (xs.map f)
  | [], _ => .nil
  | x :: xs, h => .cons (h x (List.mem_cons_self)) (Sames.map fun y hy => h y (List.mem_cons_of_mem _ hy))

theorem Holds.same {t : El} {v w : Val} (h : Holds t v) (s : Same v w) : Holds t w := by
  have ints : ∀ lo hi, IntIn lo hi v → IntIn lo hi w := fun lo hi ⟨i, a, b, c⟩ => ⟨i, a, b, s.symm.trans c⟩
  cases t with
  | bit => exact ints _ _ h
  | i8 => exact ints _ _ h
  | i16 => exact ints _ _ h
  | i32 => exact ints _ _ h
  | f64 =>
    obtain ⟨f, rfl⟩ := h
    cases w with
    | num g => exact ⟨g, rfl⟩
    | chr => exact s.elim
    | other => exact s.elim
  | c8 =>
    obtain ⟨c, rfl, hc⟩ := h
    cases w with
    | num g => exact s.elim
    | chr d => have e : c = d := s; exact ⟨d, rfl, e ▸ hc⟩
    | other => exact s.elim
  | c16 =>
    obtain ⟨c, rfl, hc⟩ := h
    cases w with
    | num g => exact s.elim
    | chr d => have e : c = d := s; exact ⟨d, rfl, e ▸ hc⟩
    | other => exact s.elim
  | c32 =>
    obtain ⟨c, rfl⟩ := h
    cases w with
    | num g => exact s.elim
    | chr d => exact ⟨d, rfl⟩
    | other => exact s.elim
  | B => exact trivial

theorem Sames.holds {t : El} {vs ws} (s : Sames vs ws) (h : ∀ v ∈ vs, Holds t v) : ∀ w ∈ ws, Holds t w := by
  induction s with
  | nil => exact fun _ hw => nomatch hw
  | cons a _ ih =>
    intro w hw
    rcases List.mem_cons.1 hw with rfl | hw
    · exact (h _ List.mem_cons_self).same a
    · exact ih (fun v hv => h v (List.mem_cons_of_mem _ hv)) w hw

theorem Least.same {t : El} {vs ws} (h : Least t vs) (s : Sames vs ws) : Least t ws :=
  ⟨s.holds h.1, fun u hu => h.2 u (s.symm.holds hu)⟩

/-! ## Integers as doubles -/

theorem ofInt_inj {i j : Int} (hi : i.natAbs < 2^53) (hj : j.natAbs < 2^53) (h : Compare.key (ofInt i) = Compare.key (ofInt j)) : i = j := by
  have a := key_mono hi hj
  have b := key_mono hj hi
  rw [h] at a b
  have := fun h => Int.lt_irrefl _ (a.2 h)
  have := fun h => Int.lt_irrefl _ (b.2 h)
  omega

theorem same_ofInt {i j : Int} (hi : i.natAbs < 2^53) (hj : j.natAbs < 2^53) (h : Same (.num (ofInt i)) (.num (ofInt j))) : i = j := by
  rcases h with h | h
  · exact ofInt_inj hi hj (by rw [h])
  · exact ofInt_inj hi hj h.2.2

theorem eqF_self {i : Int} (hi : i.natAbs < 2^53) : EqF (ofInt i) (ofInt i) := ⟨ofInt_nan hi, ofInt_nan hi, rfl⟩

/-- `(i32)` of an integral double in range. -/
theorem toI32_ofInt (bad : BitVec 64 → BitVec 32) {i : Int} (h1 : -2147483648 ≤ i) (h2 : i ≤ 2147483647) :
    toI32 bad (ofInt i) = BitVec.ofInt 32 i := by
  have hb : i.natAbs < 2^53 := by omega
  by_cases h0 : i = 0
  · subst h0; rfl
  have hm : i.natAbs ≠ 0 := by omega
  obtain ⟨f1, f2⟩ := frac_lt hm hb
  obtain ⟨l1, l2⟩ := log2_bounds hm
  have hl : i.natAbs.log2 ≤ 31 := by
    rcases Nat.lt_or_ge 31 i.natAbs.log2 with h | h
    · have := Nat.pow_le_pow_right (n := 2) (by decide) (show 32 ≤ i.natAbs.log2 by omega); omega
    · exact h
  have ht := ofInt_toNat hb
  have hmag : mag i.natAbs = (1023 + i.natAbs.log2) * 2^52 + (i.natAbs - 2^i.natAbs.log2) * 2^(52 - i.natAbs.log2) := if_neg hm
  have hm2 := mag_lt hb
  have hsplit : (2:Nat)^52 = 2^i.natAbs.log2 * 2^(52 - i.natAbs.log2) := by rw [← Nat.pow_add]; congr 1; omega
  generalize hF : ofInt i = F at *
  have he : F.toNat / 2^52 % 2048 = 1023 + i.natAbs.log2 := by
    rw [ht, hmag]
    generalize (i.natAbs - 2^i.natAbs.log2) * 2^(52 - i.natAbs.log2) = R at *
    generalize i.natAbs.log2 = L at *
    split <;> omega
  have hr : F.toNat % 2^52 = (i.natAbs - 2^i.natAbs.log2) * 2^(52 - i.natAbs.log2) := by
    rw [ht, hmag]
    generalize (i.natAbs - 2^i.natAbs.log2) * 2^(52 - i.natAbs.log2) = R at *
    generalize i.natAbs.log2 = L at *
    split <;> omega
  have hM : (2^52 + F.toNat % 2^52) / 2^(52 - (F.toNat / 2^52 % 2048 - 1023)) = i.natAbs := by
    rw [he, hr, show 1023 + i.natAbs.log2 - 1023 = i.natAbs.log2 by omega]
    have : 2^52 + (i.natAbs - 2^i.natAbs.log2) * 2^(52 - i.natAbs.log2) = i.natAbs * 2^(52 - i.natAbs.log2) := by
      rw [hsplit, ← Nat.add_mul]; congr 1; omega
    rw [this, Nat.mul_div_cancel _ (Nat.two_pow_pos _)]
  unfold toI32
  dsimp only
  rw [hM, he, if_neg (by omega)]
  by_cases hs : i < 0
  · rw [if_pos hs] at ht
    rw [if_pos ⟨by omega, .inr ⟨by omega, by omega⟩⟩, if_neg (by omega)]
    congr 1
    omega
  · rw [if_neg hs] at ht
    rw [if_pos ⟨by omega, .inl ⟨by omega, by omega⟩⟩, if_pos (by omega)]
    congr 1
    omega

theorem toI32_eqF (bad : BitVec 64 → BitVec 32) {f : BitVec 64} {i : Int} (h1 : -2147483648 ≤ i) (h2 : i ≤ 2147483647)
    (h : EqF f (ofInt i)) : toI32 bad f = BitVec.ofInt 32 i := by
  have hb : i.natAbs < 2^53 := by omega
  by_cases h0 : i = 0
  · subst h0
    have hk := h.2.2
    have : Compare.key (ofInt 0) = 0 := rfl
    rw [this] at hk
    have hf := f.isLt
    have : f.toNat = 0 ∨ f.toNat = 2^63 := by
      unfold Compare.key at hk
      split at hk <;> omega
    unfold toI32
    dsimp only
    rw [if_pos (by rcases this with h | h <;> rw [h] <;> decide)]
    rfl
  · have : f = ofInt i := by
      have hk := h.2.2
      have hn : Compare.key (ofInt i) ≠ 0 := by
        intro e
        have : Compare.key (ofInt 0) = 0 := rfl
        exact h0 (ofInt_inj hb (by decide) (e.trans this.symm))
      apply BitVec.eq_of_toNat_eq
      have hf := f.isLt
      generalize hF : ofInt i = F at *
      have hg := F.isLt
      unfold Compare.key at hk hn
      split at hk <;> split at hk <;> split at hn <;> omega
    rw [this]
    exact toI32_ofInt bad h1 h2

theorem ofInt_toInt32 {i : Int} (h1 : -2147483648 ≤ i) (h2 : i ≤ 2147483647) : (BitVec.ofInt 32 i).toInt = i := by
  rw [BitVec.toInt_ofInt, Int.bmod_eq_of_le (by omega) (by omega)]

theorem range32 (x : BitVec 32) : -2147483648 ≤ x.toInt ∧ x.toInt ≤ 2147483647 := by
  have := @BitVec.le_toInt 32 x; have := @BitVec.toInt_lt 32 x; omega
theorem range16 (x : BitVec 16) : -32768 ≤ x.toInt ∧ x.toInt ≤ 32767 := by
  have := @BitVec.le_toInt 16 x; have := @BitVec.toInt_lt 16 x; omega
theorem range8 (x : BitVec 8) : -128 ≤ x.toInt ∧ x.toInt ≤ 127 := by
  have := @BitVec.le_toInt 8 x; have := @BitVec.toInt_lt 8 x; omega

/-- `q_i32` is true exactly of the doubles that equal an `i32`, and then the conversion gives it. -/
theorem qI32_iff {bad : BitVec 64 → BitVec 32} {f : BitVec 64} : qI32 bad f = true ↔ Holds .i32 (.num f) := by
  unfold qI32
  rw [feq_iff]
  constructor
  · intro h
    exact ⟨_, (range32 _).1, (range32 _).2, .inr h⟩
  · rintro ⟨i, h1, h2, h⟩
    have h : EqF f (ofInt i) := by
      rcases h with h | h
      · rw [h]; exact eqF_self (by omega)
      · exact h
    rw [toI32_eqF bad h1 h2 h, ofInt_toInt32 h1 h2]
    exact h

theorem qI32_same {bad : BitVec 64 → BitVec 32} {f : BitVec 64} (h : qI32 bad f = true) :
    Same (.num f) (.num (ofInt (toI32 bad f).toInt)) := .inr (feq_iff.1 h)

/-! ## Which types hold an integer -/

theorem intIn_ofInt {lo hi i : Int} (hl : -2147483648 ≤ lo) (hh : hi ≤ 2147483647) (hi' : i.natAbs < 2^53) :
    IntIn lo hi (.num (ofInt i)) ↔ lo ≤ i ∧ i ≤ hi := by
  constructor
  · rintro ⟨j, a, b, c⟩
    have := same_ofInt hi' (by omega) c
    omega
  · rintro ⟨a, b⟩
    exact ⟨i, a, b, Same.refl _⟩

/-- The integers that an integer type holds. -/
def lo : El → Int
  | .bit => 0 | .i8 => -128 | .i16 => -32768 | _ => -2147483648
def hi : El → Int
  | .bit => 1 | .i8 => 127 | .i16 => 32767 | _ => 2147483647

theorem holds_int {t : El} (ht : t.rank ≤ 3) {v : Val} : Holds t v ↔ IntIn (lo t) (hi t) v := by
  cases t <;> first | exact Iff.rfl | (exact absurd ht (by decide))

/-- Least type of a list of integers, given what the integers satisfy. -/
theorem least_ints {t : El} {is : List Int} (ht : t.rank ≤ 3) (hne : is ≠ [])
    (h : ∀ i ∈ is, lo t ≤ i ∧ i ≤ hi t)
    (hmin : ∀ u : El, u.rank < t.rank → ∃ i ∈ is, ¬ (lo u ≤ i ∧ i ≤ hi u)) :
    Least t (is.map fun i => .num (ofInt i)) := by
  have b1 : ∀ u : El, -2147483648 ≤ lo u := fun u => by cases u <;> decide
  have b2 : ∀ u : El, hi u ≤ 2147483647 := fun u => by cases u <;> decide
  have sm : ∀ i ∈ is, i.natAbs < 2^53 := fun i hi => by have := h i hi; have := b1 t; have := b2 t; omega
  constructor
  · intro v hv
    obtain ⟨i, hi, rfl⟩ := List.mem_map.1 hv
    exact (holds_int ht).2 ((intIn_ofInt (b1 t) (b2 t) (sm i hi)).2 (h i hi))
  · intro u hu
    rcases Nat.lt_or_ge u.rank t.rank with hlt | hge
    · obtain ⟨i, hi, hn⟩ := hmin u hlt
      exact absurd ((intIn_ofInt (b1 u) (b2 u) (sm i hi)).1 ((holds_int (by omega)).1 (hu _ (List.mem_map_of_mem hi)))) hn
    · exact hge

/-! ## Masks -/

theorem and_even (c : BitVec 32) : (c &&& ~~~1#32).toNat = c.toNat / 2 * 2 := by
  have e : c &&& ~~~1#32 = (c >>> 1) <<< 1 := by
    apply BitVec.eq_of_getLsbD_eq
    intro i hi
    rw [BitVec.getLsbD_and, BitVec.getLsbD_not, BitVec.getLsbD_shiftLeft, BitVec.getLsbD_ushiftRight]
    rcases i with _ | i
    · simp
    · rw [show 1 + (i + 1 - 1) = i + 1 by omega, BitVec.getLsbD_one]
      have h1 : ¬ i + 1 < 1 := by omega
      have h2 : ¬ i + 1 = 0 := by omega
      simp [hi, h1, h2]
  rw [e, BitVec.toNat_shiftLeft, BitVec.toNat_ushiftRight, Nat.shiftLeft_eq, Nat.shiftRight_eq_div_pow]
  have := c.isLt
  omega

theorem mask_pos {c : BitVec 32} (h : 0 ≤ c.toInt) : ((mask c).toNat : Int) = c.toInt / 2 * 2 := by
  have hm : c.msb = false := by rw [BitVec.msb_eq_toInt]; exact decide_eq_false (by omega)
  have e : c.sshiftRight 31 = 0#32 := by
    apply BitVec.eq_of_toNat_eq
    rw [BitVec.toNat_sshiftRight_of_msb_false hm, Nat.shiftRight_eq_div_pow]
    have := BitVec.toNat_lt_of_msb_false hm
    show c.toNat / 2^31 = 0
    omega
  unfold mask
  rw [e, BitVec.xor_zero, and_even, BitVec.toInt_eq_toNat_of_msb hm]
  omega

theorem mask_neg {c : BitVec 32} (h : c.toInt < 0) : ((mask c).toNat : Int) = -1 - c.toInt / 2 * 2 := by
  have hm : c.msb = true := by rw [BitVec.msb_eq_toInt]; exact decide_eq_true (by omega)
  have hc : 2^31 ≤ c.toNat := BitVec.toNat_ge_of_msb_true hm
  have hlt := c.isLt
  have e : c.sshiftRight 31 = BitVec.allOnes 32 := by
    apply BitVec.eq_of_toNat_eq
    rw [BitVec.toNat_sshiftRight_of_msb_true hm, Nat.shiftRight_eq_div_pow, BitVec.toNat_allOnes]
    omega
  unfold mask
  rw [e, BitVec.xor_allOnes, BitVec.toNat_not, and_even, BitVec.toInt_eq_toNat_bmod, Int.bmod_def]
  omega

theorem mask_zero {c : BitVec 32} : (mask c).toNat = 0 ↔ 0 ≤ c.toInt ∧ c.toInt ≤ 1 := by
  rcases Int.lt_or_le c.toInt 0 with h | h
  · have := mask_neg h; omega
  · have := mask_pos h; omega

theorem mask_8 {c : BitVec 32} : (mask c).toNat < 2^7 ↔ -128 ≤ c.toInt ∧ c.toInt ≤ 127 := by
  rcases Int.lt_or_le c.toInt 0 with h | h
  · have := mask_neg h; omega
  · have := mask_pos h; omega

theorem mask_16 {c : BitVec 32} : (mask c).toNat < 2^15 ↔ -32768 ≤ c.toInt ∧ c.toInt ≤ 32767 := by
  rcases Int.lt_or_le c.toInt 0 with h | h
  · have := mask_neg h; omega
  · have := mask_pos h; omega

theorem or_lt {a b k : Nat} : a ||| b < 2^k ↔ a < 2^k ∧ b < 2^k := by
  constructor
  · intro h
    have := @Nat.left_le_or a b
    have := @Nat.right_le_or a b
    omega
  · exact fun ⟨x, y⟩ => Nat.or_lt_two_pow x y

theorem foldl_or_lt {k : Nat} : ∀ (ms : List (BitVec 32)) (o : BitVec 32),
    (ms.foldl (· ||| ·) o).toNat < 2^k ↔ o.toNat < 2^k ∧ ∀ m ∈ ms, m.toNat < 2^k
  | [], o => by simp
  | m :: ms, o => by
    rw [List.foldl_cons, foldl_or_lt ms, BitVec.toNat_or, or_lt]
    simp only [List.mem_cons, forall_eq_or_imp, and_assoc]

theorem orAll_lt {k : Nat} (ms : List (BitVec 32)) : (orAll ms).toNat < 2^k ↔ ∀ m ∈ ms, m.toNat < 2^k := by
  unfold orAll
  rw [foldl_or_lt]
  exact and_iff_right (Nat.two_pow_pos k)

end Verif.Squeeze
