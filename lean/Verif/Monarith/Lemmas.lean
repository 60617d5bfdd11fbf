import Verif.Monarith.Model
import Verif.Squeeze.Props
/-!
# Arithmetic with one argument: lemmas
-/
namespace Verif.Monarith
open Verif.Pervade (V T abs tv)
open Verif.Squeeze (Data Val El Arr feq squeezeNumTry toF64s Same Sames EqF)
open Verif.Bins (ofInt mag ofInt_toNat ofInt_nan key_mono)

theorem Equal.refl (a : BitVec 64) : Equal a a := ⟨rfl, fun _ => rfl⟩
theorem Equal.symm {a b : BitVec 64} (h : Equal a b) : Equal b a := ⟨h.1.symm, fun hb => (h.2 (h.1.trans hb)).symm⟩
theorem Equal.trans {a b c : BitVec 64} (h : Equal a b) (k : Equal b c) : Equal a c := ⟨h.1.trans k.1, fun ha => (h.2 ha).trans (k.2 (h.1 ▸ ha))⟩

theorem neg_toNat (v : BitVec 64) : (neg v).toNat = if v.toNat < 2^63 then v.toNat + 2^63 else v.toNat - 2^63 := by
  have hv := v.isLt
  have e : (neg v).toNat = v.toNat ^^^ 2^63 := by rw [neg, BitVec.toNat_xor]; rfl
  have h1 : (v.toNat ^^^ 2^63) % 2^63 = v.toNat % 2^63 := by rw [Nat.xor_mod_two_pow, Nat.mod_self, Nat.xor_zero]
  have h2 : (v.toNat ^^^ 2^63) / 2^63 = v.toNat / 2^63 ^^^ 1 := by rw [Nat.xor_div_two_pow]
  rw [e]
  by_cases h : v.toNat < 2^63
  · rw [if_pos h]
    rw [Nat.div_eq_of_lt h] at h2
    have h3 : (0 ^^^ 1 : Nat) = 1 := rfl
    omega
  · rw [if_neg h]
    rw [show v.toNat / 2^63 = 1 by omega] at h2
    have h3 : (1 ^^^ 1 : Nat) = 0 := rfl
    omega

theorem nan_neg (v : BitVec 64) : Compare.nan (neg v) = Compare.nan v := by
  have hv := v.isLt
  rw [Compare.nan, Compare.nan, neg_toNat]
  congr 2
  by_cases h : v.toNat < 2^63
  · rw [if_pos h]; omega
  · rw [if_neg h]; omega

theorem key_neg (v : BitVec 64) : Compare.key (neg v) = -Compare.key v := by
  have hv := v.isLt
  rw [Compare.key, Compare.key, neg_toNat]
  by_cases h : v.toNat < 2^63
  · rw [if_pos h, if_pos h, if_neg (by omega)]; omega
  · rw [if_neg h, if_neg h, if_pos (by omega)]; omega

theorem neg_congr {a b : BitVec 64} (h : Equal a b) : Equal (neg a) (neg b) := by
  refine ⟨by rw [nan_neg, nan_neg]; exact h.1, fun hn => ?_⟩
  rw [nan_neg] at hn
  rw [key_neg, key_neg, h.2 hn]

theorem neg_neg (v : BitVec 64) : neg (neg v) = v := by
  apply BitVec.eq_of_toNat_eq
  have hv := v.isLt
  rw [neg_toNat, neg_toNat]
  by_cases h : v.toNat < 2^63
  · rw [if_pos h, if_neg (by omega)]; omega
  · rw [if_neg h, if_pos (by omega)]; omega

theorem and_abs (v : BitVec 64) : v &&& 0x7FFFFFFFFFFFFFFF#64 = if v.toNat < 2^63 then v else neg v := by
  apply BitVec.eq_of_toNat_eq
  have hv := v.isLt
  have e : (v &&& 0x7FFFFFFFFFFFFFFF#64).toNat = v.toNat % 2^63 := by
    rw [BitVec.toNat_and]
    exact Nat.and_two_pow_sub_one_eq_mod v.toNat 63
  rw [e]
  by_cases h : v.toNat < 2^63
  · rw [if_pos h]; omega
  · rw [if_neg h, neg_toNat, if_neg h]; omega

theorem feq_zero (v : BitVec 64) : feq v 0 = (!Compare.nan v && decide (Compare.key v = 0)) := by
  have h1 : Compare.nan (0 : BitVec 64) = false := rfl
  have h2 : Compare.key (0 : BitVec 64) = 0 := rfl
  rw [feq, h1, h2]
  simp

theorem zero_eq : (0 : BitVec 64) = ofInt 0 := rfl

/-- On one number the program does what it should. -/
theorem fexpr_eq (F : Flt) (op : Fn) (v : BitVec 64) : fexpr F op v = op.value F v := by
  cases op with
  | abs => exact and_abs v
  | sign =>
    rw [fexpr, Fn.value, feq_zero, pos, ← zero_eq]
    cases hn : Compare.nan v with
    | true => simp
    | false => simp
  | _ => rfl

/-! ## Integers -/

/-- Those of 32 bits. -/
def I32 (i : Int) : Prop := -2147483648 ≤ i ∧ i ≤ 2147483647

theorem I32.abs {i : Int} (h : I32 i) : i.natAbs < 2^53 := by
  obtain ⟨h1, h2⟩ := h
  omega

theorem key_zero : Compare.key (ofInt 0) = 0 := rfl

theorem int_minus {F : Flt} (hF : F.Ieee) {i : Int} (h : I32 i) : Equal (ofInt (0 - i)) (neg (ofInt i)) :=
  (hF.int 0 i (.inl rfl) h.1 h.2).symm.trans (hF.zero _)

theorem ofInt_sign {i : Int} (h : I32 i) : (ofInt i).toNat < 2^63 ↔ 0 ≤ i := by
  have hn := ofInt_nan h.abs
  have hk := key_mono h.abs (show (0 : Int).natAbs < 2^53 by decide)
  have hk2 := key_mono (show (0 : Int).natAbs < 2^53 by decide) h.abs
  rw [key_zero] at hk hk2
  rw [Compare.key] at hk hk2
  by_cases hz : i = 0
  · subst hz; decide
  · by_cases hp : (ofInt i).toNat < 2^63
    · rw [if_pos hp] at hk hk2; omega
    · rw [if_neg hp] at hk hk2; omega

theorem int_abs {F : Flt} (hF : F.Ieee) {i : Int} (h : I32 i) : Equal (ofInt (if 0 ≤ i then i else 0 - i)) (Fn.value F .abs (ofInt i)) := by
  rw [Fn.value]
  by_cases hi : 0 ≤ i
  · rw [if_pos hi, if_pos ((ofInt_sign h).2 hi)]
    exact Equal.refl _
  · rw [if_neg hi, if_neg (fun hh => hi ((ofInt_sign h).1 hh))]
    exact int_minus hF h

theorem int_sign (F : Flt) {i : Int} (h : I32 i) : Equal (ofInt (if i > 0 then 1 else if i = 0 then 0 else -1)) (Fn.value F .sign (ofInt i)) := by
  have hn := ofInt_nan h.abs
  have hk := key_mono h.abs (show (0 : Int).natAbs < 2^53 by decide)
  have hk2 := key_mono (show (0 : Int).natAbs < 2^53 by decide) h.abs
  rw [key_zero] at hk hk2
  rw [Fn.value, hn]
  simp only [Bool.false_eq_true, if_false]
  by_cases h1 : i > 0
  · rw [if_pos h1, if_neg (by omega), if_pos (by omega)]
    exact Equal.refl _
  · by_cases h0 : i = 0
    · rw [if_neg h1, if_pos h0, if_pos (by omega)]
      exact Equal.refl _
    · rw [if_neg h1, if_neg h0, if_neg (by omega), if_neg (by omega)]
      exact Equal.refl _

/-- The loop of the subtraction gives the differences, if it gives something. -/
theorem subLoop_spec {n : Nat} (hn : 2 ≤ n) {c : Int} (hc : c = 0 ∨ c = 1) : ∀ (xs r : List (BitVec n)), subLoop n c xs = some r → r.map BitVec.toInt = xs.map fun x => c - x.toInt
  | [], r, h => by cases h; rfl
  | x :: xs, r, h => by
    rw [subLoop] at h
    generalize hv : BitVec.ofInt (2 * n) c - x.signExtend (2 * n) = rv at h
    by_cases hf : rv ≠ (rv.setWidth n).signExtend (2 * n)
    · rw [if_pos hf] at h; cases h
    · rw [if_neg hf] at h
      obtain ⟨rs, h1, rfl⟩ := Option.map_eq_some_iff.1 h
      rw [List.map_cons, List.map_cons, subLoop_spec hn hc xs rs h1]
      congr 1
      have hf' : rv = (rv.setWidth n).signExtend (2 * n) := Classical.not_not.1 hf
      have e1 : rv.toInt = (rv.setWidth n).toInt := by
        conv => lhs; rw [hf']
        exact BitVec.toInt_signExtend_of_le (by omega)
      have e2 : rv.toInt = c - x.toInt := by
        have hx1 := BitVec.toInt_lt (x := x)
        have hx2 := BitVec.le_toInt x
        have hp : (2 : Int) ^ (2 * n) = 2 ^ (n - 1) * 2 ^ (n + 1) := by rw [← Int.pow_add]; congr 1; omega
        have hp1 : (8 : Int) ≤ 2 ^ (n + 1) := by
          have : (2 : Nat) ^ 3 ≤ 2 ^ (n + 1) := Nat.pow_le_pow_right (by omega) (by omega)
          exact_mod_cast this
        have hp2 : (2 : Int) ≤ 2 ^ (n - 1) := by
          have : (2 : Nat) ^ 1 ≤ 2 ^ (n - 1) := Nat.pow_le_pow_right (by omega) (by omega)
          exact_mod_cast this
        have hp3 : (2 : Int) ^ (n - 1) * 8 ≤ 2 ^ (2 * n) := by rw [hp]; exact Int.mul_le_mul_of_nonneg_left hp1 (by omega)
        have hcast : ((2 ^ (2 * n) : Nat) : Int) = 2 ^ (2 * n) := by push_cast; rfl
        rw [← hv, BitVec.toInt_sub, BitVec.toInt_ofInt, BitVec.toInt_signExtend_of_le (by omega)]
        have hcb : c.bmod (2 ^ (2 * n)) = c := Int.bmod_eq_of_le_mul_two (by rw [hcast]; omega) (by rw [hcast]; omega)
        rw [hcb]
        exact Int.bmod_eq_of_le_mul_two (by rw [hcast]; omega) (by rw [hcast]; omega)
      rw [← e1, e2]

theorem absLoop_spec {n : Nat} : ∀ (xs r : List (BitVec n)), absLoop n xs = some r → r.map BitVec.toInt = xs.map fun x => if 0 ≤ x.toInt then x.toInt else 0 - x.toInt
  | [], r, h => by cases h; rfl
  | x :: xs, r, h => by
    rw [absLoop] at h
    by_cases hm : x = BitVec.intMin n
    · rw [if_pos hm] at h; cases h
    · rw [if_neg hm] at h
      obtain ⟨rs, h1, rfl⟩ := Option.map_eq_some_iff.1 h
      rw [List.map_cons, List.map_cons, absLoop_spec xs rs h1]
      congr 1
      by_cases h0 : 0 ≤ x.toInt
      · rw [if_pos h0, if_pos h0]
      · rw [if_neg h0, if_neg h0, BitVec.toInt_neg_of_ne_intMin hm]; omega

theorem signI_toInt {n : Nat} (c : BitVec n) : (signI n c).toInt = if c.toInt > 0 then 1 else if c.toInt = 0 then 0 else -1 := by
  rw [signI]
  by_cases h : c.toInt > 0
  · rw [if_pos h, if_pos h]; rfl
  · rw [if_neg h, if_neg h]
    by_cases h0 : c = 0
    · rw [if_pos h0, if_pos (by rw [h0]; exact BitVec.toInt_zero)]; rfl
    · rw [if_neg h0, if_neg (fun e => h0 (BitVec.eq_of_toInt_eq (by rw [e]; exact BitVec.toInt_zero.symm)))]; rfl

end Verif.Monarith
