import Verif.Range.Model
import Verif.Rotate.Basic
import Verif.BitCopy.Lemmas
/-!
# Range: lemmas
-/
namespace Verif.Range
open Verif.Rotate Verif.BitCopy Verif.Bits

theorem flatMap_length {α : Type} {L : Nat} {f : Nat → List α} (h : ∀ i, (f i).length = L) : ∀ n, ((List.range n).flatMap f).length = n * L
  | 0 => by simp
  | n + 1 => by
    rw [List.range_succ, List.flatMap_append, List.length_append, flatMap_length h n, List.flatMap_singleton, h, Nat.succ_mul]

theorem flatMap_get {α : Type} {L : Nat} {f : Nat → List α} (h : ∀ i, (f i).length = L) {j : Nat} (hj : j < L) :
    ∀ (n i : Nat), i < n → ((List.range n).flatMap f)[i * L + j]? = (f i)[j]?
  | n + 1, i, hi => by
    rw [List.range_succ, List.flatMap_append, List.flatMap_singleton]
    by_cases e : i = n
    · subst e
      rw [List.getElem?_append_right (by rw [flatMap_length h]; omega), flatMap_length h, Nat.add_sub_cancel_left]
    · have hi' : i < n := by omega
      have : (i + 1) * L ≤ n * L := Nat.mul_le_mul_right _ hi'
      rw [Nat.succ_mul] at this
      rw [List.getElem?_append_left (by rw [flatMap_length h]; omega)]
      exact flatMap_get h hj n i hi'

theorem udRec_length (w : Nat) : ∀ (sh : List Nat) (pos : List Int), sh ≠ [] → (udRec w pos sh).length = prod sh
  | [], _, h => absurd rfl h
  | [cl], pos, _ => by simp [udRec, prod]
  | cl :: s :: sh, pos, _ => by
    unfold udRec
    rw [flatMap_length (fun i => udRec_length w (s :: sh) _ nofun)]
    rfl

theorem udRec_get {w : Nat} : ∀ (sh : List Nat) (pos : List Int) (is : List Nat), sh ≠ [] → InShape sh is →
    (∀ s ∈ sh, ∀ i : Nat, i < s → wrap w i = i) → (udRec w pos sh)[ravel sh is]? = some (pos ++ is.map Int.ofNat)
  | [], _, _, h, _, _ => absurd rfl h
  | [cl], pos, is, _, h, hw => by
    match is, h with
    | [i], .cons hi .nil =>
      have e : ravel [cl] [i] = i := by simp [ravel, prod]
      rw [e]
      unfold udRec
      rw [List.getElem?_map, List.getElem?_range hi]
      show some (pos ++ [wrap w i]) = _
      rw [hw cl (by simp) i hi]
      rfl
  | cl :: s :: sh, pos, is, _, h, hw => by
    match is, h with
    | i :: is, .cons hi h =>
      show (udRec w pos (cl :: s :: sh))[i * prod (s :: sh) + ravel (s :: sh) is]? = _
      unfold udRec
      rw [flatMap_get (fun i => udRec_length w (s :: sh) _ nofun) (ravel_lt h) cl i hi,
        udRec_get (s :: sh) _ is nofun h (fun t ht => hw t (List.mem_cons_of_mem _ ht)), hw cl (by simp) i hi]
      simp

theorem wrap8 {i : Nat} (h : i < 128) : wrap 8 i = i := by
  show (i : Int).bmod 256 = i
  unfold Int.bmod
  dsimp only
  split <;> omega
theorem wrap16 {i : Nat} (h : i < 2^15) : wrap 16 i = i := by
  show (i : Int).bmod 65536 = i
  unfold Int.bmod
  dsimp only
  split <;> omega
theorem wrap32 {i : Nat} (h : i < 2^31) : wrap 32 i = i := by
  show (i : Int).bmod 4294967296 = i
  unfold Int.bmod
  dsimp only
  split <;> omega

/-! ## Lists of ones and twos -/

theorem or_bits (a b p q : Nat) (hp : p < 2) (hq : q < 2) : (2 * a + p) ||| (2 * b + q) = 2 * (a ||| b) + (p ||| q) := by
  have hpq : p ||| q < 2 := by
    have : p = 0 ∨ p = 1 := by omega
    have : q = 0 ∨ q = 1 := by omega
    rcases ‹p = 0 ∨ p = 1› with rfl | rfl <;> rcases ‹q = 0 ∨ q = 1› with rfl | rfl <;> decide
  apply Nat.eq_of_testBit_eq
  intro i
  cases i with
  | zero =>
    rw [Nat.testBit_or, Nat.testBit_zero, Nat.testBit_zero, Nat.testBit_zero]
    have : p = 0 ∨ p = 1 := by omega
    have : q = 0 ∨ q = 1 := by omega
    rcases ‹p = 0 ∨ p = 1› with rfl | rfl <;> rcases ‹q = 0 ∨ q = 1› with rfl | rfl <;> simp [Nat.add_mod]
  | succ i =>
    rw [Nat.testBit_or, Nat.testBit_succ, Nat.testBit_succ, Nat.testBit_succ, show (2 * a + p) / 2 = a by omega, show (2 * b + q) / 2 = b by omega,
      show (2 * (a ||| b) + (p ||| q)) / 2 = a ||| b by omega, Nat.testBit_or]

/-- The counter at step `i`, with the bits of `m` set; those mark axes of length 1. -/
def dep : Nat → Nat → Nat → Nat
  | 0, _, _ => 0
  | n + 1, m, i => if m % 2 = 1 then 2 * dep n (m / 2) i + 1 else 2 * dep n (m / 2) (i / 2) + i % 2

/-- The number of steps. -/
def cnt : Nat → Nat → Nat
  | 0, _ => 1
  | n + 1, m => if m % 2 = 1 then cnt n (m / 2) else 2 * cnt n (m / 2)

theorem dep_lt : ∀ n m i, dep n m i < 2^n
  | 0, _, _ => by simp [dep]
  | n + 1, m, i => by
    unfold dep
    have h1 := dep_lt n (m / 2) i
    have h2 := dep_lt n (m / 2) (i / 2)
    rw [Nat.pow_succ]
    split <;> omega

theorem dep_or : ∀ n m i, m < 2^n → dep n m i ||| m = dep n m i
  | 0, m, i, h => by
    have : m = 0 := by simpa using h
    subst this
    exact Nat.or_zero _
  | n + 1, m, i, h => by
    rw [Nat.pow_succ] at h
    unfold dep
    by_cases e : m % 2 = 1
    · rw [if_pos e]
      conv => lhs; arg 2; rw [show m = 2 * (m / 2) + 1 by omega]
      rw [or_bits _ _ _ _ (by decide) (by decide), dep_or n (m / 2) i (by omega)]
      rfl
    · rw [if_neg e]
      conv => lhs; arg 2; rw [show m = 2 * (m / 2) + 0 by omega]
      rw [or_bits _ _ _ _ (by omega) (by decide), dep_or n (m / 2) (i / 2) (by omega), Nat.or_zero]

theorem dep_zero : ∀ n m, m < 2^n → dep n m 0 = m
  | 0, m, h => by
    have : m = 0 := by simpa using h
    subst this
    rfl
  | n + 1, m, h => by
    rw [Nat.pow_succ] at h
    unfold dep
    rw [Nat.zero_div, dep_zero n (m / 2) (by omega)]
    split <;> omega

theorem dep_succ : ∀ n m i, m < 2^n → i + 1 < cnt n m → dep n m (i + 1) = (dep n m i + 1) ||| m
  | 0, m, i, _, h => by unfold cnt at h; omega
  | n + 1, m, i, h, hi => by
    rw [Nat.pow_succ] at h
    unfold cnt at hi
    unfold dep
    by_cases e : m % 2 = 1
    · rw [if_pos e] at hi
      rw [if_pos e, if_pos e, dep_succ n (m / 2) i (by omega) hi]
      conv => rhs; arg 2; rw [show m = 2 * (m / 2) + 1 by omega]
      rw [show 2 * dep n (m / 2) i + 1 + 1 = 2 * (dep n (m / 2) i + 1) + 0 by omega, or_bits _ _ _ _ (by decide) (by decide)]
      rfl
    · rw [if_neg e] at hi
      rw [if_neg e, if_neg e]
      conv => rhs; arg 2; rw [show m = 2 * (m / 2) + 0 by omega]
      by_cases e2 : i % 2 = 0
      · rw [show (i + 1) / 2 = i / 2 by omega, show (i + 1) % 2 = 1 by omega, show 2 * dep n (m / 2) (i / 2) + i % 2 + 1 = 2 * dep n (m / 2) (i / 2) + 1 by omega,
          or_bits _ _ _ _ (by decide) (by decide), dep_or n (m / 2) (i / 2) (by omega)]
        rfl
      · rw [show (i + 1) / 2 = i / 2 + 1 by omega, show (i + 1) % 2 = 0 by omega,
          show 2 * dep n (m / 2) (i / 2) + i % 2 + 1 = 2 * (dep n (m / 2) (i / 2) + 1) + 0 by omega,
          or_bits _ _ _ _ (by decide) (by decide), dep_succ n (m / 2) (i / 2) (by omega) (by omega)]
        rfl

/-- `m` has a bit for each axis, the last one first: 1 if its length is 1, 0 if it's 2. -/
def Marks (m : Nat) (sh : List Nat) : Prop :=
  ∀ (j : Nat) (h : j < sh.length), sh[j] = if m.testBit (sh.length - 1 - j) then 1 else 2

theorem Marks.last {m s : Nat} {sh : List Nat} (h : Marks m (sh ++ [s])) : s = (if m % 2 = 1 then 1 else 2) ∧ Marks (m / 2) sh := by
  constructor
  · have := h sh.length (by simp)
    simp only [List.length_append, List.length_singleton, Nat.add_sub_cancel, Nat.sub_self, Nat.testBit_zero, List.getElem_append_right (Nat.le_refl _), List.getElem_singleton] at this
    rw [this]
    by_cases e : m % 2 = 1 <;> simp [e]
  · intro j hj
    have := h j (by simp; omega)
    simp only [List.length_append, List.length_singleton, Nat.add_sub_cancel, List.getElem_append_left hj] at this
    rw [this, show sh.length - j = (sh.length - 1 - j) + 1 by omega, Nat.testBit_succ]

theorem snoc_induct {α : Type} {P : List α → Prop} (nil : P []) (snoc : ∀ l a, P l → P (l ++ [a])) (l : List α) : P l := by
  have : ∀ r : List α, P r.reverse := by
    intro r
    induction r with
    | nil => exact nil
    | cons a r ih => rw [List.reverse_cons]; exact snoc _ _ ih
  rw [← List.reverse_reverse l]
  exact this _

theorem cnt_prod (sh : List Nat) : ∀ m, Marks m sh → cnt sh.length m = prod sh := by
  induction sh using snoc_induct with
  | nil => intro m _; rfl
  | snoc sh s ih =>
    intro m h
    obtain ⟨h1, h2⟩ := h.last
    rw [List.length_append, List.length_singleton, prod_append]
    unfold cnt
    rw [ih _ h2, h1]
    split <;> simp [prod] <;> omega

theorem dep_digit (sh : List Nat) : ∀ (m : Nat) (is : List Nat), Marks m sh → InShape sh is → ∀ (j : Nat) (hj : j < is.length),
    is[j] = if (dep sh.length m (ravel sh is)).testBit (sh.length - 1 - j) && !m.testBit (sh.length - 1 - j) then 1 else 0 := by
  induction sh using snoc_induct with
  | nil => intro m is _ h j hj; cases h; cases hj
  | snoc sh s ih =>
    intro m is hm h j hj
    obtain ⟨i1, i2, rfl, h1, h2⟩ := h.split
    match i2, h2 with
    | [d], .cons hd .nil =>
      obtain ⟨m1, m2⟩ := hm.last
      have hl := h1.length
      have hr : ravel (sh ++ [s]) (i1 ++ [d]) = ravel sh i1 * s + d := by
        rw [ravel_append h1]
        simp [prod, ravel]
      rw [hr, List.length_append, List.length_singleton]
      unfold dep
      by_cases e : m % 2 = 1
      · rw [if_pos e] at m1 ⊢
        have hd0 : d = 0 := by omega
        subst m1 hd0
        rw [show ravel sh i1 * 1 + 0 = ravel sh i1 by omega, Nat.add_sub_cancel]
        by_cases ej : j < i1.length
        · rw [List.getElem_append_left ej, ih (m / 2) i1 m2 h1 j ej, show sh.length - j = (sh.length - 1 - j) + 1 by omega, Nat.testBit_succ, Nat.testBit_succ,
            show (2 * dep sh.length (m / 2) (ravel sh i1) + 1) / 2 = dep sh.length (m / 2) (ravel sh i1) by omega]
        · rw [List.getElem_append_right (by omega)]
          have : j = sh.length := by simp at hj; omega
          subst this
          rw [Nat.sub_self, Nat.testBit_zero m, e]
          simp
      · rw [if_neg e] at m1 ⊢
        subst m1
        rw [Nat.add_sub_cancel, show (ravel sh i1 * 2 + d) / 2 = ravel sh i1 by omega, show (ravel sh i1 * 2 + d) % 2 = d by omega]
        by_cases ej : j < i1.length
        · rw [List.getElem_append_left ej, ih (m / 2) i1 m2 h1 j ej, show sh.length - j = (sh.length - 1 - j) + 1 by omega, Nat.testBit_succ, Nat.testBit_succ,
            show (2 * dep sh.length (m / 2) (ravel sh i1) + d) / 2 = dep sh.length (m / 2) (ravel sh i1) by omega]
        · rw [List.getElem_append_right (by omega)]
          have : j = sh.length := by simp at hj; omega
          subst this
          rw [Nat.sub_self, Nat.testBit_zero, Nat.testBit_zero, show (2 * dep sh.length (m / 2) (ravel sh i1) + d) % 2 = d by omega]
          have : d = 0 ∨ d = 1 := by omega
          rcases this with rfl | rfl <;> simp [e] <;> omega

end Verif.Range
