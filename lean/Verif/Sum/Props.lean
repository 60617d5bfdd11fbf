import Verif.Sum.Lemmas
/-!
# C19: integer reductions are exact
-/
namespace Verif.Sum

/-- C19. `+´𝕩` of any integer list (fewer than 2^32 elements, of any integer element type) is the exact sum, if every
right-to-left partial sum is exactly representable as a double; no machine accumulator overflows (`some`). -/
theorem fold_add_correct (fadd) (hf : ExactAdd fadd) (t : Ty) (x : List Int) (hr : InRange t.bits x)
    (hp : ∀ k, k ≤ x.length → IsF64Int (x.drop k).sum) :
    fold_add fadd t x = some x.sum := by
  unfold fold_add
  have h0 : IsF64Int 0 := isF64_of_le (by omega) (by omega)
  by_cases h : x.length ≤ 2^16
  · rw [if_pos h, sum_small_eq t x hr (Nat.le_trans h (by cases t <;> decide)), Option.map_some,
      hf _ _ (by simpa using hp 0 (by omega)) h0 (by simpa using hp 0 (by omega)), Int.add_zero]
  · rw [if_neg h, sum_T]
    obtain ⟨i1, e, hi, hor⟩ := blocks_eq t x 0 hr x.length 0 (Nat.le_refl _) (by simp)
    have hp' : ∀ k, k ≤ x.length → IsF64Int (0 + (x.drop k).sum) := by simpa using hp
    rw [e, Option.map_some, hf _ _ (hp' i1 hi) h0 (by rw [Int.add_zero]; exact hp' i1 hi), Int.add_zero,
      tailSum_eq fadd hf t x 0 hr hp' i1 hi, Int.zero_add]

/-- C19. Lists short enough for the direct path need no condition at all: at most 2^16 elements always sum exactly. -/
theorem fold_add_small (fadd) (hf : ExactAdd fadd) (t : Ty) (x : List Int) (hr : InRange t.bits x)
    (hl : x.length ≤ 2^16) : fold_add fadd t x = some x.sum := by
  have hb : ∀ k, -2^53 ≤ (x.drop k).sum ∧ (x.drop k).sum ≤ 2^53 := by
    intro k
    have hb := sum_bounds (2^(t.bits-1)) (2^(t.bits-1)-1) _ (hr.drop k)
    have hk : (x.drop k).length ≤ 2^16 := by simp; omega
    cases t <;> simp only [Ty.bits, Nat.reduceSub, Nat.reducePow, Int.reducePow, Int.reduceSub] at * <;> omega
  exact fold_add_correct fadd hf t x hr (fun k _ => isF64_of_le (hb k).1 (hb k).2)

/-- C19. `𝕨+´𝕩` with an integer `𝕨`, `|𝕨| < 2^63`, is exact under the same condition on the partial sums. -/
theorem fold_add_init_correct (fadd) (hf : ExactAdd fadd) (t : Ty) (x : List Int) (w : Int) (hr : InRange t.bits x)
    (hp : ∀ k, k ≤ x.length → IsF64Int (w + (x.drop k).sum)) :
    sum_T fadd t x w = some (w + x.sum) := by
  have h0 : IsF64Int 0 := isF64_of_le (by omega) (by omega)
  rw [sum_T]
  obtain ⟨i1, e, hi, hor⟩ := blocks_eq t x w hr x.length w (Nat.le_refl _) (by simp)
  rw [e, Option.map_some, hf _ _ (hp i1 hi) h0 (by rw [Int.add_zero]; exact hp i1 hi), Int.add_zero,
    tailSum_eq fadd hf t x w hr hp i1 hi]

/-- C19. `•math.Sum` of an integer list is exact whenever the total is representable (intermediate sums do not matter),
for lists of at most 2^32-2^16 elements occupying at most 2^32 bytes; it takes one iteration per 2^16 elements. -/
theorem math_sum_correct_partial (fadd) (hf : ExactAdd fadd) (t : Ty) (x : List Int) (hr : InRange t.bits x)
    (hl : x.length ≤ 2^(32 - t.sel)) (hl2 : x.length ≤ 2^32 - 2^16) (hT : IsF64Int x.sum) (n : Nat)
    (hn : x.length ≤ 2^16 * n) :
    sum_c1 fadd t x (n+1) = .done x.sum := by
  have := sumLoop_eq fadd hf t x hr hl hl2 hT n 0 0 0 (by omega) (by omega) (by simp) (by omega) (by omega) (by omega) (by omega)
  simpa [sum_c1] using this

/-- Finding: the restriction to 2^32 bytes is needed. The byte offset `i<<sel` is computed in 32 bits, so a list of
2^30+1 32-bit integers, all 0 but for the last, which is 1, sums to 0. -/
theorem math_sum_offset_wraps (fadd) (hf : ExactAdd fadd) :
    ∃ x : List Int, InRange Ty.i32.bits x ∧ x.sum = 1 ∧ sum_c1 fadd .i32 x (2^14 + 2) = .done 0 :=
  offset_wraps fadd hf (2^30) rfl

/-- Finding: with more than 2^32-2^16 elements the 32-bit loop counter wraps to 0 and `•math.Sum` never returns. -/
theorem math_sum_never_returns (fadd) (t : Ty) (x : List Int) (hl : 2^32 - 2^16 < x.length) (fuel : Nat) (v : Int) :
    sum_c1 fadd t x fuel ≠ .done v :=
  sumLoop_runs fadd t x hl fuel 0 0 0 (by omega) (by omega) v

/-- C19. `×´𝕩` (and `∧´𝕩`) of an integer list is the exact product if every right-to-left partial product is
representable; wrapping 32-bit products never reach the result. -/
theorem fold_mul_correct (fmul) (hf : ExactMul fmul) (t : Ty) (x : List Int) (hr : InRange t.bits x)
    (hp : ∀ k, k ≤ x.length → IsF64Int (prod (x.drop k))) : fold_mul fmul x = prod x := by
  have := prodI_eq fmul hf t x hr hp x.length (Nat.le_refl _)
  simpa [fold_mul, prod] using this

/-- C19. `⌊´` and `⌈´` give the least and the greatest element. -/
theorem fold_min_correct (x : List Int) (h : x ≠ []) : ∃ m, fold_min x = some m ∧ IsMin x m := by
  cases x with
  | nil => exact absurd rfl h
  | cons a l => exact ⟨_, rfl, minmax_min l a⟩
theorem fold_max_correct (x : List Int) (h : x ≠ []) : ∃ m, fold_max x = some m ∧ IsMax x m := by
  cases x with
  | nil => exact absurd rfl h
  | cons a l => exact ⟨_, rfl, minmax_max l a⟩

/-- C19. When the fast path of `∨´` answers, it answers the fold of `a+b-a×b` from the right, and it does answer on
lists of 0s and 1s. -/
theorem fold_or_correct (x : List Int) (b : Bool) (h : fold_or x x.length = some b) :
    orFold x = if b then 1 else 0 :=
  fold_or_eq x x.length (Nat.le_refl _) (by simp [orFold]) b h
theorem fold_or_answers (x : List Int) (h : ∀ v ∈ x, v = 0 ∨ v = 1) : (fold_or x x.length).isSome := by
  have : ∀ i, i ≤ x.length → (fold_or x i).isSome := by
    intro i
    induction i with
    | zero => intro _; rfl
    | succ i ih =>
      intro hi
      rw [fold_or]
      have hm := h (x.getD i 0) (by simp [show i < x.length by omega])
      by_cases c1 : x.getD i 0 = 1
      · rw [if_pos c1]; rfl
      · rw [if_neg c1, if_neg (fun hn => hn (hm.resolve_right c1))]; exact ih (by omega)
  exact this _ (Nat.le_refl _)

/-- C19. The total used to size results (`usum`) is an error exactly if some element is negative, and the exact total
otherwise; no partial sum overflows its accumulator. -/
theorem usum_correct (t : Ty) (x : List Int) (hr : InRange t.bits x) (hl : x.length < 2^32) :
    usum t x = if ∃ v ∈ x, v < 0 then .err else .ok x.sum.toNat := by
  have hsub : x ⊆ x := fun _ h => h
  cases t <;> simp only [usum, InRange, Ty.bits, Nat.reduceSub, Int.reducePow, Int.reduceSub] at *
  · rw [usumBlocks_eq 16 _ (2^7) (by omega) (by omega) (by omega) (by decide) x _ x 0 (Nat.le_refl _)
      (fun v h => by have := hr v h; omega) (by omega) hsub]
    simp only [Nat.zero_add]
  · rw [usumBlocks_eq 32 _ (2^15) (by omega) (by omega) (by omega) (by decide) x _ x 0 (Nat.le_refl _)
      (fun v h => by have := hr v h; omega) (by omega) hsub]
    simp only [Nat.zero_add]
  · rw [usumI32_eq x x 0 false (fun v h => by have := hr v h; omega) (by omega) (by omega) (by simp) hsub]
    simp only [Int.zero_add]
    exact ite_congr (by simp) (fun _ => rfl) (fun _ => rfl)

/-- Non-vacuity: exact addition and multiplication satisfy the assumptions, and so do these lists. -/
example : ExactAdd (· + ·) := fun _ _ _ _ _ => rfl
example : ExactMul (· * ·) := fun _ _ _ _ _ => rfl
example : fold_add (· + ·) .i8 [127, 127, -128] = some 126 := by decide
example : InRange 8 [127, 127, -128] := by simp [InRange]
example : fold_mul (· * ·) [2147483647, 2, -1] = -4294967294 := by decide
example : IsF64Int (-4294967294) := isF64_of_le (by decide) (by decide)
example : usum .i16 [32767, 32767, 5] = .ok 65539 := by decide
example : usum .i8 [1, 2, -1] = .err := by decide
example : fold_min [3, -1, 2] = some (-1) := by decide
example : fold_max [3, -1, 2] = some 3 := by decide
example : fold_or [7, 1, 0, 0] 4 = some true := by decide
example : sum_c1 (· + ·) .i32 [2147483647, 2147483647, -3] 2 = .done 4294967291 := by decide

end Verif.Sum
