import Verif.Fold.Lemmas2
/-!
# C18: folds of boolean lists equal right-to-left evaluation

`fold_c1_bit`, `fold_c2_bit` are the word-level C paths; `Spec.fold`/`Spec.foldInit` evaluate the function right to left
on the numbers 0 and 1. Bits of the last word past the end of the list, and later words, are arbitrary.
-/
namespace Verif.Fold
open Verif.Bits Spec

/-- `𝔽´𝕩` for every boolean list of length at least 1 and each of `∧ ∨ × ⌊ ⌈ + - ≠ = < ≤ > ≥`; in particular no
undefined `CTZ(0)` is evaluated (that would be `none`). -/
theorem fold_bool_correct (p : Prim) (x : Nat → Word) (ia : Nat) (h : 0 < ia) :
    ∃ r, fold_c1_bit p x ia = some r ∧ fold (fnOf p).app ((listF x ia).map num) = some r :=
  ⟨_, fold_c1_closed p x ia, fold_closed' p (bitF x) ia h⟩

/-- The code's result does not depend on anything but the listed bits. -/
theorem fold_bool_padding (p : Prim) (x y : Nat → Word) (ia : Nat) (h : 0 < ia) (hl : listF x ia = listF y ia) :
    fold_c1_bit p x ia = fold_c1_bit p y ia := by
  obtain ⟨r, h1, h2⟩ := fold_bool_correct p x ia h
  obtain ⟨s, h3, h4⟩ := fold_bool_correct p y ia h
  rw [hl, h4] at h2
  rw [h1, h3]
  exact h2.symm

/-- `𝕨𝔽´𝕩` for a boolean list and an integer 𝕨 of 32 bits, when the boolean path is taken: the value is the
right-to-left fold starting from 𝕨. -/
theorem fold_bool_init_correct (p : Prim) (wi : Int) (x : Nat → Word) (ia : Nat) (r : Int)
    (h : fold_c2_bit p wi x ia = .val r) : foldInit (fnOf p).app wi ((listF x ia).map num) = r := by
  have e2 : ∀ b : Nat → Bool, ∀ v, ¬ ∃ j, j < 0 ∧ b j = v := fun b v ⟨j, hj, _⟩ => by omega
  cases p <;> simp only [fold_c2_bit] at h <;> try contradiction
  case add =>
    simp only [FoldOut.val.injEq] at h
    rw [← h, bit_sum_eq]
    refine foldInit_closed _ wi (fun b n => wi + cnt b n) (fun b => by simp [cnt]) (fun b n => ?_) (bitF x) ia
    simp only [fnOf, Fn.app, num, cnt_shift]
    rcases Bool.eq_false_or_eq_true (b 0) with h | h <;> simp [h] <;> omega
  case sub =>
    have hr : r = (if ia % 2 = 1 then -wi else wi) + bit_diff x ia := by
      split at h
      · split at h
        · contradiction
        · rename_i h1 _; rw [if_pos h1]; exact (FoldOut.val.inj h).symm
      · rename_i h1; rw [if_neg h1]; exact (FoldOut.val.inj h).symm
    rw [hr, bit_diff_eq]
    refine foldInit_closed _ wi (fun b n => (if n % 2 = 1 then -wi else wi) + alt b n)
      (fun b => by simp [alt, cnt]) (fun b n => ?_) (bitF x) ia
    simp only [fnOf, Fn.app, alt_shift]
    by_cases hn : n % 2 = 1
    · rw [if_pos hn, if_neg (by omega)]; omega
    · rw [if_neg hn, if_pos (by omega)]; omega
  case ne =>
    split at h
    · rename_i hw
      simp only [FoldOut.val.injEq] at h
      rw [← h, fold_ne_eq]
      refine foldInit_closed _ wi (fun b n => b2i (decide (wi = 1) ^^ par b n))
        (fun b => by rcases hw with rfl | rfl <;> rfl) (fun b n => ?_) (bitF x) ia
      rw [par_shift]
      simp only [fnOf, Fn.app]
      cases b 0 <;> cases par (fun i => b (i+1)) n <;> cases decide (wi = 1) <;> rfl
    · contradiction
  case eq =>
    split at h
    · rename_i hw
      simp only [FoldOut.val.injEq] at h
      rw [← h, fold_ne_eq]
      refine foldInit_closed _ wi (fun b n => b2i (decide (wi = 1) ^^ par b n ^^ decide (n % 2 = 1)))
        (fun b => by rcases hw with rfl | rfl <;> rfl) (fun b n => ?_) (bitF x) ia
      have : decide ((n+1) % 2 = 1) = !decide (n % 2 = 1) := by
        rw [← decide_not]; apply decide_eq_decide.2; omega
      rw [par_shift, this]
      simp only [fnOf, Fn.app]
      cases b 0 <;> cases par (fun i => b (i+1)) n <;> cases decide (wi = 1) <;> cases decide (n % 2 = 1) <;> rfl
    · contradiction
  case or | ceil =>
    split at h
    · rename_i hw
      simp only [FoldOut.val.injEq] at h
      rw [← h, bit_has_eq]
      refine foldInit_closed _ wi (fun b n => b2i (decide (wi ≠ 0) || decide (∃ j, j < n ∧ b j = true)))
        (fun b => by simp only [e2]; rcases hw with rfl | rfl <;> rfl) (fun b n => ?_) (bitF x) ia
      simp only
      rw [decide_eq_decide.2 (ex_succ b _ n), Bool.decide_or]
      simp only [fnOf, Fn.app]
      cases b 0 <;> cases decide (∃ j, j < n ∧ b (j+1) = true) <;> cases decide (wi ≠ 0) <;> rfl
    · contradiction
  case and | mul | floor =>
    split at h
    · rename_i hw
      simp only [FoldOut.val.injEq] at h
      rw [← h, bit_has_eq]
      refine foldInit_closed _ wi (fun b n => b2i (decide (wi ≠ 0) && !decide (∃ j, j < n ∧ b j = false)))
        (fun b => by simp only [e2]; rcases hw with rfl | rfl <;> rfl) (fun b n => ?_) (bitF x) ia
      simp only
      rw [decide_eq_decide.2 (ex_succ b _ n), Bool.decide_or]
      simp only [fnOf, Fn.app]
      cases b 0 <;> cases decide (∃ j, j < n ∧ b (j+1) = false) <;> cases decide (wi ≠ 0) <;> rfl
    · contradiction

/-- Which arguments take the boolean path, and that it is free of signed overflow except for `-´` with 𝕨 = -2^31 and an
odd length. -/
theorem fold_bool_init_outcomes (p : Prim) (wi : Int) (x : Nat → Word) (ia : Nat) :
    (fold_c2_bit p wi x ia = .ub ↔ p = .sub ∧ wi = -2^31 ∧ ia % 2 = 1) ∧
    (fold_c2_bit p wi x ia = .otherPath → p ≠ .add ∧ p ≠ .sub ∧ (wi ≠ 0 ∧ wi ≠ 1 ∨ p = .lt ∨ p = .le ∨ p = .gt ∨ p = .ge)) := by
  cases p <;> simp only [fold_c2_bit] <;> (try split) <;> (try split) <;> simp_all

/-- Finding: `-´` with 𝕨 = -2^31 on an odd-length boolean list negates INT_MIN in `i32` (fold.c:366), undefined
behaviour, though the mathematical result 2^31 is representable. -/
theorem fold_sub_init_undefined :
    fold_c2_bit .sub (-2^31) (fun _ => 0#64) 1 = .ub ∧
    foldInit (fnOf .sub).app (-2^31) ((listF (fun _ => 0#64) 1).map num) = 2^31 := by decide

-- concrete cases: a 67-bit list with garbage after its end
example : fold_c1_bit .sub (fun i => if i = 0 then 0x5#64 else 0xFF0#64) 67 = some 2 := by decide +kernel
example : fold_c1_bit .gt (fun i => if i = 0 then 0x7#64 else 0xFF0#64) 67 = some 1 := by decide +kernel
example : fold_c1_bit .lt (fun i => if i = 0 then 0x0#64 else 0xFF4#64) 67 = some 1 := by decide +kernel
example : fold_c2_bit .eq 1 (fun i => if i = 0 then 0x7#64 else 0xFF0#64) 67 = .val 1 := by decide +kernel
example : fold_c2_bit .sub 10 (fun i => if i = 0 then 0x7#64 else 0xFF0#64) 67 = .val (-9) := by decide +kernel

end Verif.Fold
