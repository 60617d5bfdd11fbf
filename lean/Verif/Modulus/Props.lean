import Verif.Modulus.Value
/-!
# C79: modulus of integers

`Rem w x r` in `Spec.lean` says what `w|x` is. The theorems are about the loops for arrays stored as integers, which divide with `float` or `double`, and about `w|x` for two numbers.
-/
namespace Verif.Modulus

/-- There is only one remainder. -/
theorem rem_unique {w x r s : ℤ} (hw : w ≠ 0) (hr : Rem w x r) (hs : Rem w x s) : r = s := by
  obtain ⟨⟨k, hk⟩, r1, r2⟩ := hr
  obtain ⟨⟨l, hl⟩, s1, s2⟩ := hs
  have e : w * (k - l) = s - r := by linarith [mul_sub w k l]
  have hkl : k = l := by
    by_contra hne
    have h1 : 1 ≤ |k - l| := Int.one_le_abs (sub_ne_zero.2 hne)
    have h2 : |w| * 1 ≤ |w| * |k - l| := mul_le_mul_of_nonneg_left h1 (abs_nonneg w)
    rw [← abs_mul, e] at h2
    have h3 : |s - r| < |w| := by
      rw [abs_lt]
      rcases lt_or_gt_of_ne hw with h | h
      · rw [abs_of_neg h]; have := r2 h; have := s2 h; constructor <;> omega
      · rw [abs_of_pos h]; have := r1 h; have := s1 h; constructor <;> omega
    omega
  subst hkl
  omega

example : Rem 7 (-3) 4 ∧ Rem (-7) 3 (-4) ∧ Rem (-7) 21 0 :=
  ⟨⟨⟨-1, by decide⟩, by decide, by decide⟩, ⟨⟨-1, by decide⟩, by decide, by decide⟩, ⟨⟨-3, by decide⟩, by decide, by decide⟩⟩

/-- C79: every element of `w|x` for two arrays of integers is the remainder, whichever floating-point type the quotient is computed in. -/
theorem mod_arrays (t : ITy) (ws xs : List ℤ) (hx : ∀ x ∈ xs, t.Has x) (hw : ∀ w ∈ ws, ITy.i32.Has w) (hl : ws.length = xs.length) :
    (modAA t ws xs).length = xs.length ∧
    ∀ (i : ℕ) w x, ws[i]? = some w → xs[i]? = some x →
      (w ≠ 0 → ∃ r, (modAA t ws xs)[i]? = some (int r) ∧ Rem w x r) ∧ (w = 0 → (modAA t ws xs)[i]? = some .nan) := by
  refine ⟨by rw [modAA, List.length_zipWith]; omega, fun i w x ew ex => ?_⟩
  have e : (modAA t ws xs)[i]? = some ((int x).sub ((int w).mul (floordivAA t.small x w))) := by
    rw [modAA, List.getElem?_zipWith, ew, ex]
  have hxt := hx x (List.mem_of_getElem? ex)
  have hwt := hw w (List.mem_of_getElem? ew)
  rw [e]
  refine ⟨fun h0 => ?_, fun h0 => ?_⟩
  · rw [floordivAA_eq hxt hwt h0]
    obtain ⟨r, e, hr⟩ := sub_mul_floor h0 (abs_i32 hwt) (abs_i32 (has_i32 hxt))
    exact ⟨r, by rw [e], hr⟩
  · subst h0
    rw [modAA_zero]

/-- Bytes, and a large modulus that a `float` can't hold. -/
example : (∀ x ∈ [(-128 : ℤ), 127, 5], ITy.i8.Has x) ∧ (∀ w ∈ [(16777217 : ℤ), -3, 0], ITy.i32.Has w) ∧ [(16777217 : ℤ), -3, 0].length = [(-128 : ℤ), 127, 5].length := by
  simp [ITy.Has]

/-- C79: every element of `w|x` for a number and an array of integers is the remainder; the quotient always fits the integer type that it's stored as. -/
theorem mod_number_array (t : ITy) (w : ℤ) (xs : List ℤ) (hx : ∀ x ∈ xs, t.Has x) (hw : ITy.i32.Has w) (h0 : w ≠ 0) :
    ∃ rs : List ℤ, modSA t w xs = some (rs.map int) ∧ rs.length = xs.length ∧ ∀ (i : ℕ) x r, xs[i]? = some x → rs[i]? = some r → Rem w x r := by
  have h : ∀ x ∈ xs, (floordivAS t.small x w).map (fun q => (int x).sub ((int w).mul q)) = some (int (x - w * ⌊(x:ℚ) / w⌋)) := by
    intro x hm
    rw [floordivAS_eq (hx x hm) h0]
    obtain ⟨r, e, hr⟩ := sub_mul_floor (x := x) h0 (abs_i32 hw) (abs_i32 (has_i32 (hx x hm)))
    rw [Option.map_some, e, rem_unique h0 hr (rem_floor h0).1]
  refine ⟨xs.map fun x : ℤ => x - w * ⌊(x:ℚ) / w⌋, ?_, List.length_map _, fun i x r ex er => ?_⟩
  · rw [modSA, mapM_some h, List.map_map]; rfl
  · rw [List.getElem?_map, ex] at er
    cases er
    exact (rem_floor h0).1

example : (∀ x ∈ [(-32768 : ℤ), 32767], ITy.i16.Has x) ∧ ITy.i32.Has (-2147483648) ∧ (-2147483648 : ℤ) ≠ 0 := by simp [ITy.Has]

/-- C79: `0|x` has no numbers. -/
theorem mod_number_zero (t : ITy) (xs : List ℤ) : modSA t 0 xs = some (xs.map fun _ => .nan) := by
  rw [modSA]
  refine mapM_some fun x _ => ?_
  have : ∀ q : ℚ, (int 0).mul ((D.fin q).mul .pinf) = .nan := by
    intro q
    show (int 0).mul (if q = 0 then .nan else if 0 < q then .pinf else .ninf) = .nan
    split
    · rfl
    · split <;> (rw [int, Int.cast_zero]; rfl)
  rw [floordivAS, if_neg (by decide), if_neg (by decide), if_pos rfl, Option.map_some, int, this]
  rfl

theorem typeOf_has {x : ℤ} (h : ITy.i32.Has x) : (typeOf x).Has x := by
  unfold typeOf
  by_cases h1 : -2^7 ≤ x ∧ x < 2^7
  · rw [if_pos h1]
    by_cases h2 : x = 0 ∨ x = 1
    · rw [if_pos h2]; exact h2
    · rw [if_neg h2]; exact h1
  · rw [if_neg h1]
    by_cases h2 : -2^15 ≤ x ∧ x < 2^15
    · rw [if_pos h2]; exact h2
    · rw [if_neg h2]; exact h

/-- C79: every element of `w|x` for an array of integers and a number is the remainder. -/
theorem mod_array_number (ws : List ℤ) (x : ℤ) (hw : ∀ w ∈ ws, ITy.i32.Has w) (hx : ITy.i32.Has x) :
    (modAS ws x).length = ws.length ∧
    ∀ (i : ℕ) w, ws[i]? = some w → (w ≠ 0 → ∃ r, (modAS ws x)[i]? = some (int r) ∧ Rem w x r) ∧ (w = 0 → (modAS ws x)[i]? = some .nan) := by
  obtain ⟨h1, h2⟩ := mod_arrays (typeOf x) ws (List.replicate ws.length x) (fun y hy => by rw [List.eq_of_mem_replicate hy]; exact typeOf_has hx) hw (by rw [List.length_replicate])
  refine ⟨by rw [modAS, h1, List.length_replicate], fun i w ew => ?_⟩
  have hi := (List.getElem?_eq_some_iff.1 ew).1
  exact h2 i w x ew (by rw [List.getElem?_replicate, if_pos hi])

/-- C79: `w|x` for two whole numbers is the remainder. -/
theorem mod_numbers (w x : ℤ) (hw : |w| < 2^53) : (w ≠ 0 → ∃ r, pfmod x w = int r ∧ Rem w x r) ∧ (w = 0 → pfmod x w = .nan) := by
  refine ⟨fun h => pfmod_int h hw, fun h => ?_⟩
  subst h
  rw [pfmod, fmod, if_pos Int.cast_zero]

/-- C79: so arrays give the same as their elements one at a time. -/
theorem mod_same (t : ITy) (w : ℤ) (xs : List ℤ) (hx : ∀ x ∈ xs, t.Has x) (hw : ITy.i32.Has w) :
    modSA t w xs = some (xs.map fun x : ℤ => pfmod x w) := by
  by_cases h0 : w = 0
  · subst h0
    rw [mod_number_zero]
    exact congrArg some (List.map_congr_left fun x _ => by rw [pfmod, fmod, if_pos Int.cast_zero])
  · obtain ⟨rs, e, hl, h⟩ := mod_number_array t w xs hx hw h0
    rw [e]
    congr 1
    apply List.ext_getElem?
    intro i
    rw [List.getElem?_map, List.getElem?_map]
    cases hxi : xs[i]? with
    | none =>
      rw [List.getElem?_eq_none_iff] at hxi
      rw [List.getElem?_eq_none (by omega)]; rfl
    | some x =>
      have hi := (List.getElem?_eq_some_iff.1 hxi).1
      have hr : rs[i]? = some rs[i] := List.getElem?_eq_getElem (by omega)
      rw [hr]
      obtain ⟨r, er, hr2⟩ := pfmod_int (x := x) h0 (by have := abs_i32 hw; omega)
      rw [Option.map_some, Option.map_some, er, rem_unique h0 hr2 (h i x _ hxi hr)]

/-- For numbers that aren't whole the remainder can be rounded up to the modulus: `1|¯2⋆¯60` is 1. -/
theorem mod_rounds_up : pfmod (-1 / 2^60) 1 = .fin 1 := by
  have hq : (-1 / 2^60 : ℚ) / 1 < 0 := by norm_num
  have hceil : ⌈(-1 / 2^60 : ℚ) / 1⌉ = 0 := by
    rw [Int.ceil_eq_iff]; constructor <;> norm_num
  have hlog : Int.log 2 |((-1 / 2^60 : ℚ) - 1 * ((0:ℤ):ℚ)) + 1| = -1 := by
    have hp : (0:ℚ) < |((-1 / 2^60 : ℚ) - 1 * ((0:ℤ):ℚ)) + 1| := by norm_num
    have h1 : Int.log 2 |((-1 / 2^60 : ℚ) - 1 * ((0:ℤ):ℚ)) + 1| < 0 := by
      rw [← Int.lt_zpow_iff_log_lt (by norm_num) hp]
      norm_num [abs_of_pos]
    have h2 : -1 ≤ Int.log 2 |((-1 / 2^60 : ℚ) - 1 * ((0:ℤ):ℚ)) + 1| := by
      rw [← Int.zpow_le_iff_le_log (by norm_num) hp]
      norm_num [abs_of_pos]
    omega
  have hne : ((-1 / 2^60 : ℚ) - 1 * ((0:ℤ):ℚ)) + 1 ≠ 0 := by norm_num
  rw [pfmod, fmod, if_neg (by norm_num), if_neg (not_le.2 hq), hceil]
  dsimp only
  rw [if_pos ⟨by norm_num, by norm_num⟩, rnd, if_neg hne, hlog]
  have hfl : ⌊(((-1 / 2^60 : ℚ) - 1 * ((0:ℤ):ℚ)) + 1) / 2 ^ ((-1 : ℤ) + 1 - (53 : ℕ))⌋ = 9007199254740991 := by
    rw [Int.floor_eq_iff]
    constructor <;> norm_num [zpow_neg]
  dsimp only
  rw [near, hfl]
  rw [if_neg (by norm_num [zpow_neg]), if_pos (by norm_num [zpow_neg])]
  norm_num [zpow_neg]

end Verif.Modulus
