import Verif.Sum.Spec
import Verif.Sum.Model
namespace Verif.Sum

theorem isF64_of_le {z : Int} (h1 : -2^53 ≤ z) (h2 : z ≤ 2^53) : IsF64Int z :=
  ⟨z, 0, by simp, h1, h2, by omega⟩

theorem isF64_mul48 {k : Int} (h1 : -2^53 ≤ k) (h2 : k ≤ 2^53) : IsF64Int (k * 2^48) :=
  ⟨k, 48, rfl, h1, h2, by omega⟩

theorem accum_eq (n : Nat) (L H : Int) (hL : 0 ≤ L) (hH : 0 ≤ H) : ∀ (x : List Int) (s : Int),
    (∀ v ∈ x, -L ≤ v ∧ v ≤ H) → -2^(n-1) ≤ s - L * x.length → s + H * x.length ≤ 2^(n-1) - 1 →
    accum n s x = some (s + x.sum)
  | [], s, _, _, _ => by simp [accum]
  | v :: x, s, hv, h1, h2 => by
    have hv0 := hv v (by simp)
    have hx := fun u hu => hv u (List.mem_cons_of_mem _ hu)
    simp only [List.length_cons, Int.natCast_add, Int.mul_add, Int.natCast_one, Int.mul_one] at h1 h2
    have p1 : 0 ≤ L * x.length := Int.mul_nonneg hL (by omega)
    have p2 : 0 ≤ H * x.length := Int.mul_nonneg hH (by omega)
    have hs : sadd n s v = some (s + v) := by
      unfold sadd; rw [if_pos ⟨by omega, by omega⟩]
    simp only [accum, hs, Option.bind_some, List.sum_cons]
    rw [accum_eq n L H hL hH x (s+v) hx (by omega) (by omega)]
    congr 1; omega

theorem sum_bounds (L H : Int) : ∀ (x : List Int), (∀ v ∈ x, -L ≤ v ∧ v ≤ H) →
    -(L * x.length) ≤ x.sum ∧ x.sum ≤ H * x.length
  | [], _ => by simp
  | v :: x, hv => by
    have hv0 := hv v (by simp)
    have := sum_bounds L H x (fun u hu => hv u (List.mem_cons_of_mem _ hu))
    simp only [List.length_cons, Int.natCast_add, Int.mul_add, Int.natCast_one, Int.mul_one, List.sum_cons]
    omega

def Ty.cap : Ty → Nat
  | .i8 => 2^24 | .i16 => 2^16 | .i32 => 2^31

theorem sum_small_eq (t : Ty) (x : List Int) (hr : InRange t.bits x) (hl : x.length ≤ t.cap) :
    sum_small t x = some x.sum := by
  unfold sum_small
  cases t <;> simp only [Ty.cap, InRange, Ty.bits, Ty.accBits] at * <;> simp only [Nat.reduceSub, Int.reducePow, Nat.reducePow] at *
  · rw [accum_eq 32 (2^7) (2^7-1) (by decide) (by decide) x 0 (fun v hv => by have := hr v hv; omega)] <;> simp <;> omega
  · rw [accum_eq 32 (2^15) (2^15-1) (by decide) (by decide) x 0 (fun v hv => by have := hr v hv; omega)] <;> simp <;> omega
  · rw [accum_eq 64 (2^31) (2^31-1) (by decide) (by decide) x 0 (fun v hv => by have := hr v hv; omega)] <;> simp <;> omega

theorem InRange.drop {b x} (h : InRange b x) (k) : InRange b (x.drop k) := fun v hv => h v (List.mem_of_mem_drop hv)
theorem InRange.take {b x} (h : InRange b x) (k) : InRange b (x.take k) := fun v hv => h v (List.mem_of_mem_take hv)

theorem sum_append (a b : List Int) : (a ++ b).sum = a.sum + b.sum := by
  induction a <;> simp_all [Int.add_assoc]

theorem sum_split (x : List Int) (i1 i0 : Nat) (h : i1 ≤ i0) :
    ((x.take i0).drop i1).sum + (x.drop i0).sum = (x.drop i1).sum := by
  rw [← sum_append]
  congr 1
  conv => rhs; rw [← List.take_append_drop i0 x]
  rw [List.drop_append]
  by_cases hx : i0 ≤ x.length
  · have : i1 - (x.take i0).length = 0 := by simp; omega
    rw [this]; rfl
  · have : x.drop i0 = [] := List.drop_eq_nil_of_le (by omega)
    rw [this]; simp

theorem blocks_eq (t : Ty) (x : List Int) (init : Int) (hr : InRange t.bits x) :
    ∀ (i0 : Nat) (c : Int), i0 ≤ x.length → c = init + (x.drop i0).sum →
    ∃ i1, blocks t x c i0 = some (init + (x.drop i1).sum, i1) ∧ i1 ≤ i0 ∧
      (i1 = i0 ∨ (-2^53 ≤ init + (x.drop i1).sum ∧ init + (x.drop i1).sum ≤ 2^53)) := by
  intro i0
  induction i0 using Nat.strongRecOn with
  | _ i0 ih =>
    intro c hi hc
    unfold blocks
    by_cases h : i0 > 0 ∧ -t.lim ≤ c ∧ c ≤ t.lim
    · rw [dif_pos h]
      have hpos : 0 < t.blk := by cases t <;> decide
      have hlt : (i0 - 1) / t.blk * t.blk ≤ i0 - 1 := Nat.div_mul_le_self _ _
      have hge : i0 - 1 - (i0 - 1) / t.blk * t.blk < t.blk := by
        have := Nat.div_add_mod (i0 - 1) t.blk
        have h3 := Nat.mod_lt (i0 - 1) hpos
        rw [Nat.mul_comm] at this
        omega
      simp only []
      generalize (i0 - 1) / t.blk * t.blk = i1 at *
      have hlen : ((x.take i0).drop i1).length = i0 - i1 := by simp; omega
      have hrb : InRange t.bits ((x.take i0).drop i1) := (hr.take _).drop _
      have hsm := sum_small_eq t _ hrb (by
        rw [hlen]; cases t <;> simp only [Ty.blk, Ty.cap, Ty.M, Ty.bits, Nat.reduceSub, Nat.reducePow] at * <;> omega)
      have hb := sum_bounds (2^(t.bits-1)) (2^(t.bits-1)-1) _ hrb
      rw [hlen] at hb
      have hsp := sum_split x i1 i0 (by omega)
      have hbd : -2^53 ≤ c + ((x.take i0).drop i1).sum ∧ c + ((x.take i0).drop i1).sum ≤ 2^53 := by
        obtain ⟨_, h1, h2⟩ := h
        cases t <;> simp only [Ty.lim, Ty.M, Ty.blk, Ty.bits, Nat.reduceSub, Nat.reducePow, Int.reducePow, Int.reduceSub] at * <;> omega
      rw [hsm]
      have hsa : sadd 64 c ((x.take i0).drop i1).sum = some (c + ((x.take i0).drop i1).sum) := by
        unfold sadd; rw [if_pos ⟨by omega, by omega⟩]
      simp only [Option.bind_some, hsa]
      obtain ⟨i2, e, hl, hor⟩ := ih i1 (by omega) (c + ((x.take i0).drop i1).sum) (by omega) (by omega)
      refine ⟨i2, e, by omega, Or.inr ?_⟩
      rcases hor with rfl | h
      · have : init + (x.drop i2).sum = c + ((x.take i0).drop i2).sum := by omega
        rw [this]; exact hbd
      · exact h
    · rw [dif_neg h]
      exact ⟨i0, by rw [hc], by omega, Or.inl rfl⟩

theorem getD_lt (x : List Int) (i : Nat) (h : i < x.length) : x.getD i 0 = x[i] := by simp [h]

theorem drop_sum_succ (x : List Int) (i : Nat) (h : i < x.length) :
    (x.drop i).sum = x.getD i 0 + (x.drop (i+1)).sum := by
  rw [List.drop_eq_getElem_cons h, List.sum_cons, getD_lt _ _ h]

theorem elem_f64 {t : Ty} {x : List Int} (hr : InRange t.bits x) (i : Nat) : IsF64Int (x.getD i 0) := by
  by_cases h : i < x.length
  · have := hr (x.getD i 0) (by simp [h])
    apply isF64_of_le <;> cases t <;> simp only [Ty.bits, Nat.reduceSub, Int.reducePow] at * <;> omega
  · simp [h]; apply isF64_of_le <;> decide

theorem tailSum_eq (fadd) (hf : ExactAdd fadd) (t : Ty) (x : List Int) (init : Int) (hr : InRange t.bits x)
    (hp : ∀ k, k ≤ x.length → IsF64Int (init + (x.drop k).sum)) : ∀ i, i ≤ x.length →
    tailSum fadd x (init + (x.drop i).sum) i = init + x.sum
  | 0, _ => by simp [tailSum]
  | i+1, h => by
    rw [tailSum]
    have e := drop_sum_succ x i (by omega)
    rw [hf _ _ (hp _ h) (elem_f64 hr i) (by have := hp i (by omega); rw [e] at this; rw [Int.add_assoc, Int.add_comm _ (x.getD i 0)]; exact this)]
    have : init + (x.drop (i+1)).sum + x.getD i 0 = init + (x.drop i).sum := by omega
    rw [this]
    exact tailSum_eq fadd hf t x init hr hp i (by omega)

theorem sumBlock_eq (t : Ty) (x : List Int) (i : Nat) (h : i < x.length) (hl : x.length ≤ 2^(32 - t.sel)) :
    sumBlock t x i = (x.drop i).take (2^16) := by
  have e : (i * 2^t.sel % 2^32) / 2^t.sel = i := by
    cases t <;> simp only [Ty.sel, Nat.reduceSub, Nat.reducePow] at * <;> omega
  unfold sumBlock
  rw [e]
  by_cases hc : x.length - i < 2^16
  · rw [if_pos hc, List.take_of_length_le (by simp), List.take_of_length_le (by simp; omega)]
  · rw [if_neg hc]

theorem sumLoop_eq (fadd) (hf : ExactAdd fadd) (t : Ty) (x : List Int) (hr : InRange t.bits x)
    (hl : x.length ≤ 2^(32 - t.sel)) (hl2 : x.length ≤ 2^32 - 2^16) (hT : IsF64Int x.sum) :
    ∀ (n j : Nat) (s k : Int), x.length ≤ 65536 * (j + n) → j ≤ 2^16 → s + k * 2^48 = (x.take (j * 2^16)).sum →
      -2^48 < s → s < 2^48 → -(j:Int) ≤ k → k ≤ j →
      sumLoop fadd t x (j * 2^16) s (k * 2^48) (n+1) = .done x.sum := by
  intro n
  induction n with
  | zero =>
    intro j s k h1 hj h2 h3 h4 h5 h6
    unfold sumLoop
    rw [if_neg (by omega)]
    rw [List.take_of_length_le (by omega)] at h2
    rw [hf _ _ (isF64_mul48 (by omega) (by omega)) (isF64_of_le (by omega) (by omega)) (by rw [Int.add_comm, h2]; exact hT)]
    congr 1; omega
  | succ n ih =>
    intro j s k h1 hj h2 h3 h4 h5 h6
    unfold sumLoop
    by_cases hi : j * 2^16 < x.length
    · rw [if_pos hi, sumBlock_eq t x _ hi hl]
      have hrb : InRange t.bits ((x.drop (j * 2^16)).take (2^16)) := (hr.drop _).take _
      have hbl : ((x.drop (j * 2^16)).take (2^16)).length ≤ 2^16 := by rw [List.length_take]; exact Nat.min_le_left _ _
      rw [sum_small_eq t _ hrb (Nat.le_trans hbl (by cases t <;> decide))]
      have hb := sum_bounds (2^(t.bits-1)) (2^(t.bits-1)-1) _ hrb
      have hsum : (x.take ((j+1) * 2^16)).sum = (x.take (j * 2^16)).sum + ((x.drop (j * 2^16)).take (2^16)).sum := by
        rw [Nat.add_mul, Nat.one_mul, List.take_add, sum_append]
      generalize ((x.drop (j * 2^16)).take (2^16)) = B at *
      have hd : -2^47 ≤ B.sum ∧ B.sum ≤ 2^47 := by
        cases t <;> simp only [Ty.bits, Nat.reduceSub, Nat.reducePow, Int.reducePow, Int.reduceSub] at * <;> omega
      simp only [Option.bind_some]
      have hsa : sadd 64 s B.sum = some (s + B.sum) := by
        unfold sadd; rw [if_pos ⟨by omega, by omega⟩]
      rw [hsa]
      simp only []
      have hmod : (j * 2^16 + 2^16) % 2^32 = (j + 1) * 2^16 := by omega
      rw [hmod]
      by_cases c1 : s + B.sum ≥ 2^48
      · rw [if_pos c1, if_neg (by simp only []; omega)]
        have ef : fadd (k * 2^48) (2^48) = (k + 1) * 2^48 := by
          rw [hf _ _ (isF64_mul48 (by omega) (by omega)) (by simpa using isF64_mul48 (k := 1) (by omega) (by omega)) (by
            have := isF64_mul48 (k := k + 1) (by omega) (by omega)
            rwa [Int.add_mul, Int.one_mul] at this)]
          omega
        simp only [ef]
        exact ih (j+1) _ _ (by omega) (by omega) (by omega) (by omega) (by omega) (by omega) (by omega)
      · rw [if_neg c1]
        by_cases c2 : s + B.sum ≤ -2^48
        · rw [if_pos c2]
          have ef : fadd (k * 2^48) (-2^48) = (k - 1) * 2^48 := by
            rw [hf _ _ (isF64_mul48 (by omega) (by omega)) (by simpa using isF64_mul48 (k := -1) (by omega) (by omega)) (by
              have := isF64_mul48 (k := k - 1) (by omega) (by omega)
              rwa [Int.sub_mul, Int.one_mul, Int.sub_eq_add_neg] at this)]
            omega
          simp only [ef]
          exact ih (j+1) _ _ (by omega) (by omega) (by omega) (by omega) (by omega) (by omega) (by omega)
        · rw [if_neg c2]
          exact ih (j+1) _ _ (by omega) (by omega) (by omega) (by omega) (by omega) (by omega) (by omega)
    · rw [if_neg hi]
      rw [List.take_of_length_le (by omega)] at h2
      rw [hf _ _ (isF64_mul48 (by omega) (by omega)) (isF64_of_le (by omega) (by omega)) (by rw [Int.add_comm, h2]; exact hT)]
      congr 1; omega

/-! ## wrapped offsets -/

/-- A loop that only ever reads zeros returns 0. -/
theorem sumLoop_zero (fadd) (hf : ExactAdd fadd) (t : Ty) (x : List Int) (hl2 : x.length ≤ 2^32 - 2^16)
    (hz : ∀ j, j * 2^16 < x.length → ∀ v ∈ sumBlock t x (j * 2^16), v = 0) :
    ∀ (n j : Nat), x.length ≤ 65536 * (j + n) → sumLoop fadd t x (j * 2^16) 0 0 (n+1) = .done 0 := by
  have h0 : IsF64Int 0 := isF64_of_le (by omega) (by omega)
  have hend : fadd 0 0 = 0 := by rw [hf 0 0 h0 h0 h0]; rfl
  have acc : ∀ (n : Nat) (l : List Int), (∀ v ∈ l, v = 0) → accum n 0 l = some 0 := by
    intro n l
    induction l with
    | nil => intro _; rfl
    | cons a l ih =>
      intro h
      have ha : a = 0 := h a (by simp)
      have hp : (0:Int) < 2^(n-1) := Int.pow_pos (by omega)
      simp only [accum, ha, sadd]
      rw [if_pos ⟨by omega, by omega⟩]
      exact ih (fun v hv => h v (List.mem_cons_of_mem _ hv))
  intro n
  induction n with
  | zero => intro j h; unfold sumLoop; rw [if_neg (by omega), hend]
  | succ n ih =>
    intro j h
    unfold sumLoop
    by_cases hi : j * 2^16 < x.length
    · rw [if_pos hi]
      have : sum_small t (sumBlock t x (j * 2^16)) = some 0 := acc _ _ (hz j hi)
      rw [this]
      have hmod : (j * 2^16 + 2^16) % 2^32 = (j + 1) * 2^16 := by omega
      simp only [Option.bind_some, sadd, Int.add_zero]
      rw [if_pos (by decide)]
      simp only [hmod]
      exact ih (j+1) (by omega)
    · rw [if_neg hi, hend]

theorem offset_wraps (fadd) (hf : ExactAdd fadd) (m : Nat) (hm : m = 2^30) :
    ∃ x : List Int, InRange Ty.i32.bits x ∧ x.sum = 1 ∧ sum_c1 fadd .i32 x (2^14 + 2) = .done 0 := by
  refine ⟨List.replicate m 0 ++ [1], ?_, ?_, ?_⟩
  · intro v hv
    simp only [List.mem_append, List.mem_replicate, List.mem_singleton] at hv
    simp only [Ty.bits]
    rcases hv with ⟨_, rfl⟩ | rfl <;> decide
  · rw [sum_append]
    have : ∀ n, (List.replicate n (0:Int)).sum = 0 := by
      intro n; induction n with
      | zero => rfl
      | succ n ih => rw [List.replicate_succ, List.sum_cons, ih]; rfl
    rw [this]; rfl
  · have hlen : (List.replicate m (0:Int) ++ [1]).length = m + 1 := by simp
    have hz : ∀ j, j * 2^16 < (List.replicate m (0:Int) ++ [1]).length →
        ∀ v ∈ sumBlock .i32 (List.replicate m (0:Int) ++ [1]) (j * 2^16), v = 0 := by
      intro j hj v hv
      unfold sumBlock at hv
      rw [hlen] at hv hj
      simp only [Ty.sel] at hv
      have hb : (if m + 1 - j * 2^16 < 2^16 then m + 1 - j * 2^16 else 2^16) ≤ 2^16 ∧
        (j * 2^16 = 2^30 → (if m + 1 - j * 2^16 < 2^16 then m + 1 - j * 2^16 else 2^16) = 1) := by
        split <;> omega
      generalize (if m + 1 - j * 2^16 < 2^16 then m + 1 - j * 2^16 else 2^16) = b at hv hb
      have hk : j * 2^16 * 2^2 % 2^32 / 2^2 + b ≤ m := by omega
      generalize j * 2^16 * 2^2 % 2^32 / 2^2 = k at hv hk
      rw [List.drop_append, List.take_append] at hv
      simp only [List.length_replicate, List.drop_replicate, List.mem_append] at hv
      have : b - (m - k) = 0 := by omega
      rw [this, List.take_zero] at hv
      exact (List.mem_replicate.1 (List.mem_of_mem_take (by simpa using hv))).2
    have := sumLoop_zero fadd hf .i32 _ (by rw [hlen]; omega) hz (2^14 + 1) 0 (by rw [hlen]; omega)
    rw [Nat.zero_mul] at this
    exact this

/-- When the list has more than `2^32 - 2^16` elements the counter wraps to 0 and the loop goes on for ever. -/
theorem sumLoop_runs (fadd) (t : Ty) (x : List Int) (hl : 2^32 - 2^16 < x.length) :
    ∀ (n i : Nat) (s r : Int), i % 2^16 = 0 → i < 2^32 →
      ∀ v, sumLoop fadd t x i s r n ≠ .done v := by
  intro n
  induction n with
  | zero => intro i s r _ _ v h; simp [sumLoop] at h
  | succ n ih =>
    intro i s r h1 h2 v
    unfold sumLoop
    rw [if_pos (by omega)]
    split
    · simp
    · exact ih _ _ _ (by omega) (by omega) v

/-! ## products -/

theorem prod_drop_succ (x : List Int) (i : Nat) (h : i < x.length) :
    prod (x.drop i) = x.getD i 0 * prod (x.drop (i+1)) := by
  rw [List.drop_eq_getElem_cons h, prod, getD_lt _ _ h]

theorem prodF_eq (fmul) (hf : ExactMul fmul) (t : Ty) (x : List Int) (hr : InRange t.bits x)
    (hp : ∀ k, k ≤ x.length → IsF64Int (prod (x.drop k))) : ∀ i, i ≤ x.length →
    prodF fmul x (prod (x.drop i)) i = prod x
  | 0, _ => by simp [prodF]
  | i+1, h => by
    rw [prodF]
    have e := prod_drop_succ x i (by omega)
    have e2 : prod (x.drop (i+1)) * x.getD i 0 = prod (x.drop i) := by rw [e, Int.mul_comm]
    rw [hf _ _ (hp _ h) (elem_f64 hr i) (by rw [e2]; exact hp i (by omega)), e2]
    exact prodF_eq fmul hf t x hr hp i (by omega)

theorem prodI_eq (fmul) (hf : ExactMul fmul) (t : Ty) (x : List Int) (hr : InRange t.bits x)
    (hp : ∀ k, k ≤ x.length → IsF64Int (prod (x.drop k))) : ∀ i, i ≤ x.length →
    prodI fmul x (prod (x.drop i)) i = prod x
  | 0, _ => by simp [prodI]
  | i+1, h => by
    rw [prodI]
    have e := prod_drop_succ x i (by omega)
    have e2 : prod (x.drop (i+1)) * x.getD i 0 = prod (x.drop i) := by rw [e, Int.mul_comm]
    simp only [e2]
    split
    · exact prodF_eq fmul hf t x hr hp (i+1) h
    · rename_i hn
      rw [Int.bmod_eq_of_le (by omega) (by omega)]
      exact prodI_eq fmul hf t x hr hp i (by omega)

/-! ## minimum and maximum -/

theorem minmax_min : ∀ (xs : List Int) (r : Int), IsMin (r :: xs) (minmax (fun a b => decide (a < b)) r xs)
  | [], r => by simp [minmax, IsMin]
  | x :: xs, r => by
    rw [minmax]
    obtain ⟨h1, h2⟩ := minmax_min xs (if decide (x < r) = true then x else r)
    generalize minmax _ _ xs = m at *
    simp only [IsMin, List.mem_cons, forall_eq_or_imp, decide_eq_true_eq] at *
    by_cases c : x < r
    · rw [if_pos c] at h1 h2
      refine ⟨?_, by omega, by omega, h2.2⟩
      rcases h1 with h | h <;> simp [h]
    · rw [if_neg c] at h1 h2
      refine ⟨?_, by omega, by omega, h2.2⟩
      rcases h1 with h | h <;> simp [h]

theorem minmax_max : ∀ (xs : List Int) (r : Int), IsMax (r :: xs) (minmax (fun a b => decide (a > b)) r xs)
  | [], r => by simp [minmax, IsMax]
  | x :: xs, r => by
    rw [minmax]
    obtain ⟨h1, h2⟩ := minmax_max xs (if decide (x > r) = true then x else r)
    generalize minmax _ _ xs = m at *
    simp only [IsMax, List.mem_cons, forall_eq_or_imp, decide_eq_true_eq] at *
    by_cases c : x > r
    · rw [if_pos c] at h1 h2
      refine ⟨?_, by omega, by omega, h2.2⟩
      rcases h1 with h | h <;> simp [h]
    · rw [if_neg c] at h1 h2
      refine ⟨?_, by omega, by omega, h2.2⟩
      rcases h1 with h | h <;> simp [h]

/-! ## or -/

theorem orFold_one : ∀ (a b : List Int), orFold b = 1 → orFold (a ++ b) = 1
  | [], _, h => h
  | x :: a, b, h => by rw [List.cons_append, orFold, orFold_one a b h]; omega

theorem fold_or_eq (x : List Int) : ∀ i, i ≤ x.length → orFold (x.drop i) = 0 → ∀ b, fold_or x i = some b →
    orFold x = if b then 1 else 0
  | 0, _, h, b, e => by
    simp only [fold_or, Option.some.injEq] at e; subst e; simpa using h
  | i+1, hi, h, b, e => by
    rw [fold_or] at e
    have hd : x.drop i = x.getD i 0 :: x.drop (i+1) := by
      rw [List.drop_eq_getElem_cons (by omega), getD_lt _ _ (by omega)]
    by_cases c1 : x.getD i 0 = 1
    · rw [if_pos c1] at e
      simp only [Option.some.injEq] at e; subst e
      rw [← List.take_append_drop i x]
      exact orFold_one _ _ (by rw [hd, orFold, h, c1]; rfl)
    · rw [if_neg c1] at e
      by_cases c0 : x.getD i 0 = 0
      · rw [if_neg (by simpa using c0)] at e
        exact fold_or_eq x i (by omega) (by rw [hd, orFold, h, c0]; rfl) b e
      · rw [if_pos (by simpa using c0)] at e; simp at e

/-! ## usum -/

theorem usum_generic_neg : ∀ (x : List Int) (r : Nat), (∃ v ∈ x, v < 0) → usum_generic r x = .err
  | [], _, h => by simp at h
  | c :: cs, r, h => by
    rw [usum_generic]
    by_cases hc : c < 0
    · rw [if_pos hc]
    · rw [if_neg hc]
      split
      · exact usum_generic_neg cs _ (by
          obtain ⟨v, hv, hn⟩ := h
          rcases List.mem_cons.1 hv with rfl | hv
          · exact absurd hn hc
          · exact ⟨v, hv, hn⟩)
      · rfl

theorem usumBlock_eq (n : Nat) (L H : Int) (hL : 0 ≤ L) (hH : 0 ≤ H) : ∀ (x : List Int) (s : Int) (neg : Bool),
    (∀ v ∈ x, -L ≤ v ∧ v ≤ H) → -2^(n-1) ≤ s - L * x.length → s + H * x.length ≤ 2^(n-1) - 1 →
    usumBlock n neg s x = some (neg || x.any (fun v => decide (v < 0)), s + x.sum)
  | [], s, _, _, _, _ => by simp [usumBlock]
  | v :: x, s, neg, hv, h1, h2 => by
    have hv0 := hv v (by simp)
    have hx := fun u hu => hv u (List.mem_cons_of_mem _ hu)
    simp only [List.length_cons, Int.natCast_add, Int.mul_add, Int.natCast_one, Int.mul_one] at h1 h2
    have p1 : 0 ≤ L * x.length := Int.mul_nonneg hL (by omega)
    have p2 : 0 ≤ H * x.length := Int.mul_nonneg hH (by omega)
    have hs : sadd n s v = some (s + v) := by
      unfold sadd; rw [if_pos ⟨by omega, by omega⟩]
    simp only [usumBlock, hs, Option.bind_some, List.sum_cons, List.any_cons]
    rw [usumBlock_eq n L H hL hH x (s+v) _ hx (by omega) (by omega), Bool.or_assoc, Int.add_assoc]

theorem sum_nonneg : ∀ (x : List Int), (∀ v ∈ x, 0 ≤ v) → 0 ≤ x.sum
  | [], _ => by simp
  | v :: x, h => by
    have := sum_nonneg x (fun u hu => h u (List.mem_cons_of_mem _ hu))
    have := h v (by simp)
    rw [List.sum_cons]; omega

theorem usumBlocks_eq (n b : Nat) (L : Int) (hL : 1 ≤ L) (hL32 : L ≤ 2^32) (hb : 0 < b)
    (hbnd : L * b ≤ 2^(n-1)) (full : List Int) :
    ∀ (fuel : Nat) (x : List Int) (r : Nat), x.length ≤ fuel → (∀ v ∈ x, -L ≤ v ∧ v ≤ L - 1) →
    r + 2^32 * x.length < 2^64 → (x ⊆ full) →
    usumBlocks n b full r x fuel = if ∃ v ∈ x, v < 0 then .err else .ok (r + x.sum.toNat) := by
  intro fuel
  induction fuel with
  | zero =>
    intro x r h _ _ _
    have : x = [] := List.eq_nil_of_length_eq_zero (by omega)
    subst this; simp [usumBlocks]
  | succ fuel ih =>
    intro x r hl hv hr hsub
    unfold usumBlocks
    by_cases hx : x = []
    · subst hx; simp
    · rw [if_neg hx]
      have hlen : 0 < x.length := List.length_pos_iff.2 hx
      have hbv : ∀ v ∈ x.take b, -L ≤ v ∧ v ≤ L - 1 := fun v h => hv v (List.mem_of_mem_take h)
      have hbl : (x.take b).length ≤ b := by rw [List.length_take]; exact Nat.min_le_left _ _
      have hbl1 : 1 ≤ (x.take b).length := by rw [List.length_take]; omega
      have hll : (x.take b).length + (x.drop b).length = x.length := by simp; omega
      have m1 : L * (x.take b).length ≤ L * b := Int.mul_le_mul_of_nonneg_left (by omega) (by omega)
      have m2 : (L - 1) * ((x.take b).length : Int) = L * (x.take b).length - (x.take b).length := by
        rw [Int.sub_mul, Int.one_mul]
      have hs := usumBlock_eq n L (L-1) (by omega) (by omega) (x.take b) 0 false hbv (by omega) (by omega)
      rw [hs]
      simp only [Bool.false_or, Int.zero_add]
      by_cases hneg : ∃ v ∈ x.take b, v < 0
      · rw [if_pos (by simpa using hneg)]
        obtain ⟨v, hvm, hvn⟩ := hneg
        rw [if_pos ⟨v, List.mem_of_mem_take hvm, hvn⟩]
        exact usum_generic_neg _ _ ⟨v, hsub (List.mem_of_mem_take hvm), hvn⟩
      · rw [if_neg (by simpa using hneg)]
        have hnn : 0 ≤ (x.take b).sum := sum_nonneg _ (fun v hv => by
          rcases Int.lt_or_le v 0 with h | h
          · exact absurd ⟨v, hv, h⟩ hneg
          · exact h)
        have hub := (sum_bounds L (L-1) _ hbv).2
        have hpow : (2:Int)^(n-1) ≤ 2^n := by
          have := Nat.pow_le_pow_right (n := 2) (by omega) (Nat.sub_le n 1)
          exact_mod_cast this
        have hmod : (x.take b).sum % 2^n = (x.take b).sum := Int.emod_eq_of_lt hnn (by omega)
        rw [hmod]
        have m3 : L * (x.take b).length ≤ 2^32 * (x.take b).length := Int.mul_le_mul_of_nonneg_right hL32 (by omega)
        have hsum : x.sum = (x.take b).sum + (x.drop b).sum := by
          rw [← sum_append, List.take_append_drop]
        rw [if_pos (by omega)]
        rw [ih (x.drop b) _ (by omega) (fun v h => hv v (List.mem_of_mem_drop h)) (by omega) (fun v h => hsub (List.mem_of_mem_drop h))]
        have hiff : (∃ v ∈ x.drop b, v < 0) ↔ ∃ v ∈ x, v < 0 := by
          constructor
          · rintro ⟨v, h1, h2⟩; exact ⟨v, List.mem_of_mem_drop h1, h2⟩
          · rintro ⟨v, h1, h2⟩
            rw [← List.take_append_drop b x, List.mem_append] at h1
            rcases h1 with h1 | h1
            · exact absurd ⟨v, h1, h2⟩ hneg
            · exact ⟨v, h1, h2⟩
        by_cases he : ∃ v ∈ x, v < 0
        · rw [if_pos (hiff.2 he), if_pos he]
        · rw [if_neg (fun h => he (hiff.1 h)), if_neg he, hsum]
          have : 0 ≤ (x.drop b).sum := sum_nonneg _ (fun v hv => by
            rcases Int.lt_or_le v 0 with h | h
            · exact absurd ⟨v, List.mem_of_mem_drop hv, h⟩ he
            · exact h)
          congr 1; omega

theorem usumI32_eq (full : List Int) : ∀ (x : List Int) (r : Int) (neg : Bool), (∀ v ∈ x, -2^31 ≤ v ∧ v ≤ 2^31 - 1) →
    0 ≤ r → r + 2^31 * x.length < 2^64 → (neg = true → ∃ v ∈ full, v < 0) → (x ⊆ full) →
    usumI32 full neg r x = if neg = true ∨ ∃ v ∈ x, v < 0 then .err else .ok (r + x.sum).toNat
  | [], r, neg, _, h0, _, hneg, _ => by
    rw [usumI32]
    cases neg
    · simp
    · simp [usum_generic_neg full 0 (hneg rfl)]
  | v :: x, r, neg, hv, h0, hb, hneg, hsub => by
    have hv0 := hv v (by simp)
    have hx := fun u hu => hv u (List.mem_cons_of_mem _ hu)
    have hsub' : x ⊆ full := fun u hu => hsub (List.mem_cons_of_mem _ hu)
    simp only [List.length_cons] at hb
    rw [usumI32]
    have hneg' : (neg || decide (v < 0)) = true → ∃ v ∈ full, v < 0 := by
      intro h
      simp only [Bool.or_eq_true, decide_eq_true_eq] at h
      rcases h with h | h
      · exact hneg h
      · exact ⟨v, hsub (by simp), h⟩
    by_cases hc : r + v < 0 ∨ 2^64 ≤ r + v
    · rw [if_pos hc]
      have hvn : v < 0 := by omega
      rw [if_pos (by simp [hvn]), usum_generic_neg full 0 (hneg' (by simp [hvn]))]
      rw [if_pos (Or.inr ⟨v, by simp, hvn⟩)]
    · rw [if_neg hc, usumI32_eq full x (r+v) _ hx (by omega) (by omega) hneg' hsub']
      simp only [Bool.or_eq_true, decide_eq_true_eq, List.mem_cons, List.sum_cons, Int.add_assoc]
      have : ((neg = true ∨ v < 0) ∨ ∃ v, v ∈ x ∧ v < 0) ↔ (neg = true ∨ ∃ u, u ∈ v :: x ∧ u < 0) := by
        simp only [List.mem_cons]
        constructor
        · rintro ((h | h) | ⟨u, hu, h⟩)
          · exact Or.inl h
          · exact Or.inr ⟨v, Or.inl rfl, h⟩
          · exact Or.inr ⟨u, Or.inr hu, h⟩
        · rintro (h | ⟨u, rfl | hu, h⟩)
          · exact Or.inl (Or.inl h)
          · exact Or.inl (Or.inr h)
          · exact Or.inr ⟨u, hu, h⟩
      exact ite_congr (propext this) (fun _ => rfl) (fun _ => rfl)

end Verif.Sum
