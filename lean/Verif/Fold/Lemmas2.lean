import Verif.Fold.Lemmas
/-! # Closed forms of right folds over booleans -/
namespace Verif.Fold
open Verif.Bits Spec

theorem fold_closed (f : Int → Int → Int) (G : (Nat → Bool) → Nat → Int)
    (h1 : ∀ b, G b 1 = num (b 0)) (h2 : ∀ b n, G b (n+2) = f (num (b 0)) (G (fun i => b (i+1)) (n+1)))
    (b : Nat → Bool) (n : Nat) : fold f ((firstN b (n+1)).map num) = some (G b (n+1)) := by
  induction n generalizing b with
  | zero => simp [firstN, fold, h1]
  | succ n ih =>
    rw [h2, firstN_succ, List.map_cons]
    have := ih (fun i => b (i+1))
    rw [firstN_succ, List.map_cons] at this ⊢
    simp only [fold]
    rw [this]; rfl

theorem foldInit_closed (f : Int → Int → Int) (w : Int) (G : (Nat → Bool) → Nat → Int)
    (h1 : ∀ b, G b 0 = w) (h2 : ∀ b n, G b (n+1) = f (num (b 0)) (G (fun i => b (i+1)) n))
    (b : Nat → Bool) (n : Nat) : foldInit f w ((firstN b n).map num) = G b n := by
  induction n generalizing b with
  | zero => simp [firstN, foldInit, h1]
  | succ n ih => rw [h2, firstN_succ, List.map_cons, foldInit, ih]

theorem ex_succ (b : Nat → Bool) (v : Bool) (n : Nat) :
    (∃ j, j < n+1 ∧ b j = v) ↔ (b 0 = v ∨ ∃ j, j < n ∧ b (j+1) = v) := by
  constructor
  · rintro ⟨j, hj, h⟩
    cases j with
    | zero => exact .inl h
    | succ j => exact .inr ⟨j, by omega, h⟩
  · rintro (h | ⟨j, hj, h⟩)
    · exact ⟨0, by omega, h⟩
    · exact ⟨j+1, by omega, h⟩

theorem par_shift (b : Nat → Bool) (n : Nat) : par b (n+1) = (b 0 ^^ par (fun i => b (i+1)) n) := by
  rw [Nat.add_comm, par_add, par_succ, par_zero]
  simp only [Bool.false_bne]
  congr 1
  exact par_congr fun i _ => by rw [Nat.add_comm]

theorem cnt_not (b : Nat → Bool) (n : Nat) : cnt b n + cnt (fun i => !b i) n = n := by
  induction n with
  | zero => rfl
  | succ n ih => simp only [cnt]; rcases Bool.eq_false_or_eq_true (b n) with h | h <;> simp [h] <;> omega

/-- Alternating sum. -/
def alt (b : Nat → Bool) (n : Nat) : Int := (cnt (fun i => b i ^^ decide (i % 2 = 1)) n : Int) - (n / 2 : Nat)

theorem alt_shift (b : Nat → Bool) (n : Nat) : alt b (n+1) = num (b 0) - alt (fun i => b (i+1)) n := by
  unfold alt
  rw [cnt_shift]
  have h := cnt_not (fun i => b (i+1) ^^ decide (i % 2 = 1)) n
  have e : cnt (fun i => b (i+1) ^^ decide ((i+1) % 2 = 1)) n = cnt (fun i => !(b (i+1) ^^ decide (i % 2 = 1))) n := by
    apply cnt_congr
    intro i _
    rcases Nat.mod_two_eq_zero_or_one i with h | h
    · have : (i+1) % 2 = 1 := by omega
      simp [h, this]
    · have : (i+1) % 2 = 0 := by omega
      simp [h, this]
  rw [e]
  simp only [num, Nat.zero_mod, Nat.zero_ne_one, decide_false, Bool.xor_false]
  cases b 0 <;> simp <;> omega

theorem even_succ (n : Nat) : decide ((n+1) % 2 = 0) = !decide (n % 2 = 0) := by
  rcases Nat.mod_two_eq_zero_or_one n with h | h
  · have : (n+1) % 2 = 1 := by omega
    simp [h, this]
  · have : (n+1) % 2 = 0 := by omega
    simp [h, this]

/-- The function meant by each primitive tag. -/
def fnOf : Prim → Fn
  | .and => .and | .or => .or | .mul => .mul | .floor => .floor | .ceil => .ceil | .add => .add | .sub => .sub
  | .ne => .ne | .eq => .eq | .lt => .lt | .le => .le | .gt => .gt | .ge => .ge

/-- Closed forms. -/
def closed : Prim → (Nat → Bool) → Nat → Int
  | .and, b, n | .mul, b, n | .floor, b, n => num (!decide (∃ j, j < n ∧ b j = false))
  | .or, b, n | .ceil, b, n => num (decide (∃ j, j < n ∧ b j = true))
  | .add, b, n => cnt b n
  | .sub, b, n => alt b n
  | .ne, b, n => num (par b n)
  | .eq, b, n => num (par b n ^^ decide (n % 2 = 0))
  | .lt, b, n => num (firstIdx b true n = n - 1)
  | .le, b, n => num (firstIdx b false n ≠ n - 1)
  | .gt, b, n => num (firstIdx b false n % 2 = 1)
  | .ge, b, n => num (firstIdx b true n % 2 = 0)

theorem closed_one (p : Prim) (b : Nat → Bool) : closed p b 1 = num (b 0) := by
  have e : ∀ v, (∃ j, j < 1 ∧ b j = v) ↔ b 0 = v := fun v => by rw [ex_succ]; simp
  cases p <;> simp only [closed, e, cnt, alt, par, firstIdx, num] <;> rcases Bool.eq_false_or_eq_true (b 0) with h | h <;> simp [h]

theorem closed_step (p : Prim) (b : Nat → Bool) (n : Nat) :
    closed p b (n+2) = (fnOf p).app (num (b 0)) (closed p (fun i => b (i+1)) (n+1)) := by
  have odd_succ : ∀ m, decide ((1+m) % 2 = 0) = !decide (m % 2 = 0) := fun m => by rw [Nat.add_comm, even_succ]
  cases p
  case add => simp only [closed, fnOf, Fn.app]; rw [cnt_shift]; simp only [num]; cases b 0 <;> simp
  case sub => exact alt_shift b (n+1)
  case ne =>
    simp only [closed, fnOf, Fn.app]; rw [par_shift]
    cases b 0 <;> cases par (fun i => b (i+1)) (n+1) <;> rfl
  case eq =>
    simp only [closed, fnOf, Fn.app]; rw [par_shift, even_succ]
    cases b 0 <;> cases par (fun i => b (i+1)) (n+1) <;> cases decide ((n+1) % 2 = 0) <;> rfl
  case lt =>
    simp only [closed, fnOf, Fn.app, firstIdx.eq_2 b]
    have : ∀ m, decide (1 + m = n + 2 - 1) = decide (m = n + 1 - 1) := fun m => by
      apply decide_eq_decide.2; omega
    generalize firstIdx (fun i => b (i+1)) true (n+1) = m
    cases h : b 0
    · simp only [Bool.false_eq_true, if_false, this]; cases decide (m = n + 1 - 1) <;> rfl
    · simp only [if_true]; cases decide (m = n + 1 - 1) <;> rfl
  case le =>
    simp only [closed, fnOf, Fn.app, firstIdx.eq_2 b]
    have : ∀ m, decide (1 + m ≠ n + 2 - 1) = decide (m ≠ n + 1 - 1) := fun m => by
      apply decide_eq_decide.2; omega
    generalize firstIdx (fun i => b (i+1)) false (n+1) = m
    cases h : b 0
    · simp only [if_true]; cases decide (m ≠ n + 1 - 1) <;> rfl
    · simp only [Bool.true_eq_false, if_false, this]; cases decide (m ≠ n + 1 - 1) <;> rfl
  case gt =>
    simp only [closed, fnOf, Fn.app, firstIdx.eq_2 b]
    generalize firstIdx (fun i => b (i+1)) false (n+1) = m
    have : decide ((1 + m) % 2 = 1) = !decide (m % 2 = 1) := by
      rw [← decide_not]; apply decide_eq_decide.2; omega
    cases h : b 0
    · simp only [if_true]; cases decide (m % 2 = 1) <;> rfl
    · simp only [Bool.true_eq_false, if_false, this]; cases decide (m % 2 = 1) <;> rfl
  case ge =>
    simp only [closed, fnOf, Fn.app, firstIdx.eq_2 b]
    generalize firstIdx (fun i => b (i+1)) true (n+1) = m
    cases h : b 0
    · simp only [Bool.false_eq_true, if_false, odd_succ]; cases decide (m % 2 = 0) <;> rfl
    · simp only [if_true]; cases decide (m % 2 = 0) <;> rfl
  all_goals
    simp only [closed, fnOf, Fn.app]
    rw [decide_eq_decide.2 (ex_succ b _ (n+1)), Bool.decide_or]
    cases b 0 <;> cases decide (∃ j, j < n+1 ∧ b (j+1) = _) <;> rfl

theorem fold_closed' (p : Prim) (b : Nat → Bool) (n : Nat) (hn : 0 < n) :
    fold (fnOf p).app ((firstN b n).map num) = some (closed p b n) := by
  obtain ⟨m, rfl⟩ : ∃ m, n = m + 1 := ⟨n - 1, by omega⟩
  exact fold_closed _ (closed p) (closed_one p) (closed_step p) b m

theorem fold_c1_closed (p : Prim) (x : Nat → Word) (ia : Nat) : fold_c1_bit p x ia = some (closed p (bitF x) ia) := by
  cases p <;> simp only [fold_c1_bit, closed, bit_has_eq, bit_sum_eq, fold_ne_eq, bit_find_eq, Option.map_some, Bool.xor_true] <;>
    first
      | rfl
      | (rw [bit_diff_eq]; rfl)
      | skip
  have : ∀ m : Nat, (m % 2 : Nat) = (if decide (m % 2 = 1) then 1 else 0 : Int) := by
    intro m; rcases Nat.mod_two_eq_zero_or_one m with h | h <;> simp [h]
  simp only [this]; rfl

end Verif.Fold
