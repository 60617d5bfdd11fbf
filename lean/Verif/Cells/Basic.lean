import Verif.Cells.Model
import Verif.Rotate.Basic
import Verif.Pervade.Each
/-!
# Cells and Rank: lemmas
-/
namespace Verif.Cells
open Verif.Rotate (prod prod_append InShape ravel ravel_lt ravel_append)
open Verif.Pervade (mapM_congr)
variable {E : Type} {m : Type → Type}

theorem shProd_eq (sh : List Nat) : shProd sh = prod sh % 2^32 := by
  have main : ∀ (sh : List Nat) (a : Nat), sh.foldl (fun r v => r * v % 2^32) (a % 2^32) = a * prod sh % 2^32 := by
    intro sh
    induction sh with
    | nil => intro a; rw [List.foldl_nil, prod, Nat.mul_one]
    | cons v sh ih =>
      intro a
      rw [List.foldl_cons, Nat.mod_mul_mod, ih, prod, Nat.mul_assoc]
  have := main sh 1
  rw [Nat.one_mul] at this
  exact this

theorem shProd_small {sh : List Nat} (h : prod sh < 2^32) : shProd sh = prod sh := by rw [shProd_eq, Nat.mod_eq_of_lt h]

/-- A loop that always finds the next cells. -/
theorem loop_eq [Monad m] [LawfulMonad m] {S A R : Type} (next : S → Option (A × S)) (f : A → m R) (st : Nat → S) (arg : Nat → A) :
    ∀ (n j : Nat), (∀ i, j ≤ i → i < j + n → next (st i) = some (arg i, st (i+1))) →
      loop next f n (st j) = (do let rs ← (List.range' j n).mapM fun i => f (arg i); pure (some rs)) := by
  intro n
  induction n with
  | zero => intro j _; rw [loop]; simp
  | succ n ih =>
    intro j h
    rw [loop, h j (Nat.le_refl _) (by omega)]
    dsimp only
    rw [ih (j+1) (fun i h1 h2 => h i (by omega) (by omega)), List.range'_succ, List.mapM_cons]
    simp

theorem loop_range [Monad m] [LawfulMonad m] {S A R : Type} (next : S → Option (A × S)) (f : A → m R) (st : Nat → S) (arg : Nat → A) (n : Nat)
    (h : ∀ i, i < n → next (st i) = some (arg i, st (i+1))) :
    loop next f n (st 0) = (do let rs ← (List.range n).mapM fun i => f (arg i); pure (some rs)) := by
  rw [loop_eq next f st arg n 0 (fun i _ h2 => h i (by omega)), ← List.range_eq_range']

theorem prod_take_drop (sh : List Nat) (k : Nat) : prod (sh.take k) * prod (sh.drop k) = prod sh := by
  rw [← prod_append, List.take_append_drop]

/-- Slicing the next cell. -/
theorem slice_cell {x : Arr E} (hf : Full x) {k i : Nat} (hi : i < prod (x.sh.take k)) : slice x k (prod (x.sh.drop k)) (i * prod (x.sh.drop k)) = some (cellAt x k i) := by
  unfold slice cellAt
  rw [if_pos]
  rw [hf, ← prod_take_drop x.sh k]
  have := Nat.mul_le_mul_right (prod (x.sh.drop k)) hi
  rw [Nat.succ_mul] at this
  exact this

theorem csz_eq {x : Arr E} (hf : Full x) (hl : x.els.length < 2^32) {k : Nat} (h0 : prod (x.sh.take k) ≠ 0) : csz x k = prod (x.sh.drop k) := by
  unfold csz
  apply shProd_small
  rw [hf, ← prod_take_drop x.sh k] at hl
  have := Nat.mul_le_mul_right (prod (x.sh.drop k)) (show 1 ≤ prod (x.sh.take k) by omega)
  omega

/-- Where cell `i` starts fits in 32 bits. -/
theorem start_lt {x : Arr E} (hf : Full x) (hl : x.els.length < 2^32) {k i : Nat} (hi : i < prod (x.sh.take k)) :
    (i * prod (x.sh.drop k) + prod (x.sh.drop k)) % 2^32 = (i+1) * prod (x.sh.drop k) := by
  rw [hf, ← prod_take_drop x.sh k] at hl
  have := Nat.mul_le_mul_right (prod (x.sh.drop k)) hi
  rw [Nat.succ_mul] at this ⊢
  exact Nat.mod_eq_of_lt (by omega)

theorem cellAt_zero {x : Arr E} (hf : Full x) : cellAt x 0 0 = x := by
  unfold cellAt
  rw [Nat.zero_mul, List.drop_zero, List.drop_zero, ← hf, List.take_length]

theorem cellRankC_eq (r : Nat) (n : Num) : cellRankC r n = cellRank r n := by
  cases n with
  | int k =>
    unfold cellRankC cellRank
    dsimp only
    by_cases h : k < 0
    · rw [if_pos h, if_pos h]
      by_cases g : k + r < 0
      · rw [if_pos g]; omega
      · rw [if_neg g]; omega
    · rw [if_neg h, if_neg h]
      by_cases g : k > r
      · rw [if_pos g]; omega
      · rw [if_neg g]; omega
  | inf p => cases p <;> rfl
  | frac => rfl

theorem cellRank_le (r : Nat) (n : Num) : cellRank r n ≤ r := by
  cases n with
  | int k =>
    unfold cellRank
    dsimp only
    by_cases h : k < 0
    · rw [if_pos h]; omega
    · rw [if_neg h]; omega
  | inf p => cases p <;> simp [cellRank]
  | frac => simp [cellRank]

theorem pick_eq (s : Side) (g : G) : pick s g = asked s g := by
  cases g with
  | num n => cases n <;> rfl
  | other => rfl
  | list ns =>
    rcases ns with _ | ⟨a, _ | ⟨b, _ | ⟨c, _ | ⟨d, ns⟩⟩⟩⟩
    · rfl
    · cases a with
      | none => rfl
      | some a => cases a <;> cases s <;> rfl
    · cases a with
      | none => rfl
      | some a =>
        cases b with
        | none => cases a <;> rfl
        | some b => cases a <;> cases b <;> cases s <;> rfl
    · cases a with
      | none => rfl
      | some a =>
        cases b with
        | none => cases a <;> rfl
        | some b =>
          cases c with
          | none => cases a <;> cases b <;> rfl
          | some c => cases a <;> cases b <;> cases c <;> cases s <;> rfl
    · unfold pick
      dsimp only
      rw [if_pos (by simp)]
      cases a <;> cases b <;> cases c <;> rfl

theorem mulAll_eq : ∀ (sh : List Nat) (c : Nat), mulAll sh c = if (List.range sh.length).any (fun j => c * prod (sh.take (j+1)) ≥ 2^32) then none else some (c * prod sh) := by
  intro sh
  induction sh with
  | nil => intro c; rw [mulAll, prod, Nat.mul_one]; rfl
  | cons v sh ih =>
    intro c
    rw [mulAll]
    have e : (List.range (v :: sh).length).any (fun j => decide (c * prod ((v :: sh).take (j+1)) ≥ 2^32)) =
        (decide (c * v ≥ 2^32) || (List.range sh.length).any (fun j => decide (c * v * prod (sh.take (j+1)) ≥ 2^32))) := by
      rw [List.length_cons, List.range_succ_eq_map, List.any_cons, List.any_map]
      congr 1
      · rw [List.take_succ_cons, List.take_zero, prod, prod, Nat.mul_one]
      · congr 1
        funext j
        rw [Function.comp_apply, List.take_succ_cons, prod, Nat.mul_assoc]
    rw [e]
    by_cases h : c * v ≥ 2^32
    · rw [if_pos h, decide_eq_true h, Bool.true_or, if_pos rfl]
    · rw [if_neg h, ih, decide_eq_false h, Bool.false_or, prod, Nat.mul_assoc]

theorem mulAll_one (sh : List Nat) : mulAll sh 1 = if tooLarge sh then none else some (prod sh) := by
  rw [mulAll_eq]
  unfold tooLarge
  have : ((List.range (sh.length + 1)).any fun j => decide (prod (sh.take j) ≥ 2^32)) = (List.range sh.length).any (fun j => decide (1 * prod (sh.take (j+1)) ≥ 2^32)) := by
    rw [List.range_succ_eq_map, List.any_cons, List.any_map, List.take_zero]
    have h1 : decide (prod [] ≥ 2^32) = false := by decide
    rw [h1, Bool.false_or]
    congr 1
    funext j
    rw [Function.comp_apply, Nat.one_mul]
  rw [← this, Nat.one_mul]

theorem toFillCell_eq (fill : Arr E → E) (x : Arr E) {k : Nat} (hk : k ≠ 0) : (toFillCell fill x k).map Val.arr = fillCell fill (.arr x) k := by
  unfold toFillCell fillCell
  dsimp only
  rw [if_neg hk, mulAll_one]
  by_cases h : tooLarge (x.sh.drop k) = true
  · rw [if_pos h, if_pos h]; rfl
  · rw [if_neg h, if_neg h]; rfl

theorem fillArg_eq (fill : Arr E → E) (v : Val E) (k : Nat) : fillArg fill v k = fillCell fill v k := by
  cases v with
  | atom e => rfl
  | arr a =>
    unfold fillArg
    dsimp only
    by_cases hk : k = 0
    · rw [if_neg (fun h => h hk), hk]; rfl
    · rw [if_pos hk, toFillCell_eq fill a hk]

end Verif.Cells
