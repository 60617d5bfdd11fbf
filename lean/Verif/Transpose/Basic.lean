import Verif.Transpose.Model
import Verif.Rotate.Basic
import Verif.Select.Top
/-!
# Transpose: the loops
-/
namespace Verif.Transpose
open Verif.Bits Verif.Fold Verif.Slash Verif.Rep Verif.Select Verif.Under Verif.Rotate

theorem forLoop_spec {M} (body : Nat → M → Option M) (I : Nat → M → Prop) : ∀ (l i : Nat) (m : M), I i m → (∀ j m, i ≤ j → j < i + l → I j m → ∃ m', body j m = some m' ∧ I (j + 1) m') →
    ∃ m', forLoop body l i m = some m' ∧ I (i + l) m'
  | 0, i, m, h, _ => ⟨m, rfl, h⟩
  | l + 1, i, m, h, hb => by
    obtain ⟨m1, e, h1⟩ := hb i m (Nat.le_refl _) (by omega) h
    obtain ⟨m2, e2, h2⟩ := forLoop_spec body I l (i + 1) m1 h1 (fun j m h3 h4 => hb j m (by omega) (by omega))
    refine ⟨m2, by rw [forLoop, e, Option.bind_some, e2], ?_⟩
    rw [show i + (l + 1) = i + 1 + l by omega]
    exact h2

theorem pair_unique {x y x' y' h : Nat} (hy : y < h) (hy' : y' < h) (e : x * h + y = x' * h + y') : x = x' ∧ y = y' := by
  have h1 : (x * h + y) / h = x := by rw [Nat.mul_comm, Nat.mul_add_div (by omega), Nat.div_eq_of_lt hy, Nat.add_zero]
  have h2 : (x' * h + y') / h = x' := by rw [Nat.mul_comm, Nat.mul_add_div (by omega), Nat.div_eq_of_lt hy', Nat.add_zero]
  have : x = x' := by rw [← h1, ← h2, e]
  subst this
  exact ⟨rfl, by omega⟩

theorem pair_le {x y w h b : Nat} (hx : x < w) (hy : y < b) : x * h + y < (w - 1) * h + b := by
  have := Nat.mul_le_mul_right h (show x ≤ w - 1 by omega)
  omega

/-- The cells of the result that are in a set of pairs, and all others as before. -/
structure Moved {α} (xs m0 : List α) (bw bh w h : Nat) (S : Nat → Nat → Prop) (m : List α) : Prop where
  len : m.length = m0.length
  done : ∀ x y, x < bw → y < bh → S x y → m[x * h + y]? = xs[y * w + x]?
  rest : ∀ k : Nat, (∀ x y, x < bw → y < bh → S x y → k ≠ x * h + y) → m[k]? = m0[k]?

theorem move_spec {α} {xs m0 m : List α} {bw bh w h x y : Nat} {S : Nat → Nat → Prop} (hh : bh ≤ h) (hm : (bw - 1) * h + bh ≤ m0.length) (hx : (bh - 1) * w + bw ≤ xs.length)
    (hS : Moved xs m0 bw bh w h S m) (h1 : x < bw) (h2 : y < bh) : ∃ m', move xs w h x y m = some m' ∧ Moved xs m0 bw bh w h (fun a b => S a b ∨ (a = x ∧ b = y)) m' := by
  have hi : y * w + x < xs.length := by have := pair_le (h := w) h2 h1; omega
  have ho : x * h + y < m.length := by have := pair_le (h := h) h1 h2; have := hS.len; omega
  unfold move
  rw [List.getElem?_eq_getElem hi, Option.bind_some]
  refine ⟨_, wr_some ho _, ?_, ?_, ?_⟩
  · rw [List.length_set]
    exact hS.len
  · intro a b ha hb hab
    by_cases he : a = x ∧ b = y
    · obtain ⟨rfl, rfl⟩ := he
      rw [List.getElem?_set_self ho, List.getElem?_eq_getElem hi]
    · have hab := hab.resolve_right he
      rw [List.getElem?_set_ne, hS.done a b ha hb hab]
      intro e
      obtain ⟨e1, e2⟩ := pair_unique (by omega) (by omega) e
      exact he ⟨e1.symm, e2.symm⟩
  · intro k hk
    rw [List.getElem?_set_ne (fun e => hk x y h1 h2 (.inr ⟨rfl, rfl⟩) e.symm)]
    exact hS.rest k fun a b ha hb hab => hk a b ha hb (.inl hab)

theorem Moved.congr {α} {xs m0 m : List α} {bw bh w h : Nat} {S S' : Nat → Nat → Prop} (hS : Moved xs m0 bw bh w h S m) (h1 : ∀ x y, x < bw → y < bh → (S x y ↔ S' x y)) :
    Moved xs m0 bw bh w h S' m :=
  ⟨hS.len, fun x y hx hy h => hS.done x y hx hy ((h1 x y hx hy).2 h), fun k hk => hS.rest k fun x y hx hy h => hk x y hx hy ((h1 x y hx hy).1 h)⟩

theorem transposeT_spec {α} (xs m0 : List α) (bw bh w h : Nat) (hh : bh ≤ h) (hm : bw = 0 ∨ (bw - 1) * h + bh ≤ m0.length) (hx : bh = 0 ∨ (bh - 1) * w + bw ≤ xs.length) :
    ∃ m, transposeT xs bw bh w h m0 = some m ∧ Moved xs m0 bw bh w h (fun _ _ => True) m := by
  have start : Moved xs m0 bw bh w h (fun _ _ => False) m0 := ⟨rfl, fun _ _ _ _ h => h.elim, fun _ _ => rfl⟩
  unfold transposeT
  by_cases hlt : bh < bw
  · rw [if_pos hlt]
    obtain ⟨m, e, hI⟩ := forLoop_spec (fun y m => forLoop (fun x m => move xs w h x y m) bw 0 m) (fun y m => Moved xs m0 bw bh w h (fun _ b => b < y) m) bh 0 m0
      (start.congr fun x y _ _ => by simp) (fun y m _ hy hI => by
        obtain ⟨m', e, hI'⟩ := forLoop_spec (fun x m => move xs w h x y m) (fun x m => Moved xs m0 bw bh w h (fun a b => b < y ∨ (b = y ∧ a < x)) m) bw 0 m
          (hI.congr fun a b _ _ => by simp) (fun x m _ hx1 hI => by
            obtain ⟨m', e, h'⟩ := move_spec hh (hm.resolve_left (by omega)) (hx.resolve_left (by omega)) hI (show x < bw by omega) (show y < bh by omega)
            exact ⟨m', e, h'.congr fun a b _ _ => by omega⟩)
        exact ⟨m', e, hI'.congr fun a b _ _ => by omega⟩)
    exact ⟨m, e, hI.congr fun a b _ hb => ⟨fun _ => trivial, fun _ => by omega⟩⟩
  · rw [if_neg hlt]
    obtain ⟨m, e, hI⟩ := forLoop_spec (fun x m => forLoop (fun y m => move xs w h x y m) bh 0 m) (fun x m => Moved xs m0 bw bh w h (fun a _ => a < x) m) bw 0 m0
      (start.congr fun x y _ _ => by simp) (fun x m _ hx2 hI => by
        obtain ⟨m', e, hI'⟩ := forLoop_spec (fun y m => move xs w h x y m) (fun y m => Moved xs m0 bw bh w h (fun a b => a < x ∨ (a = x ∧ b < y)) m) bh 0 m
          (hI.congr fun a b _ _ => by simp) (fun y m _ hy1 hI => by
            obtain ⟨m', e, h'⟩ := move_spec hh (hm.resolve_left (by omega)) (hx.resolve_left (by omega)) hI (show x < bw by omega) (show y < bh by omega)
            exact ⟨m', e, h'.congr fun a b _ _ => by omega⟩)
        exact ⟨m', e, hI'.congr fun a b _ _ => by omega⟩)
    exact ⟨m, e, hI.congr fun a b ha _ => ⟨fun _ => trivial, fun _ => by omega⟩⟩

/-! ## Interleaving bits -/

/-- Pieces of `s` bits of `v`, each followed by as many zeros. -/
def Spread (s : Nat) (b : Nat → Bool) (v : Word) : Prop := ∀ p, p < 64 → v.getLsbD p = (decide (p % (2 * s) < s) && b (p / (2 * s) * s + p % (2 * s)))

theorem spread_step {b : Nat → Bool} {v m : Word} {sh : Nat} (hv : Spread (2 * sh) b v) (hm : ∀ p, p < 64 → m.getLsbD p = decide (p % (2 * sh) < sh)) (h0 : 0 < sh) :
    Spread sh b (step v m sh) := by
  intro p hp
  unfold step
  rw [BitVec.getLsbD_and, BitVec.getLsbD_or, BitVec.getLsbD_shiftLeft, hm p hp, hv p hp, decide_eq_true hp, Bool.true_and]
  by_cases h1 : p % (2 * sh) < sh
  · rw [decide_eq_true h1, Bool.and_true, Bool.true_and]
    have hd := Nat.div_add_mod p (2 * (2 * sh))
    have hl := Nat.mod_lt p (show 0 < 2 * (2 * sh) by omega)
    generalize ha : p / (2 * (2 * sh)) = a at hd ⊢
    generalize hq : p % (2 * (2 * sh)) = q at hd hl ⊢
    have e1 : p = 2 * sh * (2 * a) + q := by rw [← hd]; simp only [Nat.mul_assoc, Nat.mul_left_comm]
    have hmm : p % (2 * sh) = q % (2 * sh) := by rw [e1, Nat.mul_add_mod]
    have hdd : p / (2 * sh) = 2 * a + q / (2 * sh) := by rw [e1, Nat.mul_add_div (by omega)]
    rw [hmm] at h1 ⊢
    rw [hdd]
    by_cases h2 : q < 2 * sh
    · rw [Nat.mod_eq_of_lt h2] at h1 ⊢
      rw [Nat.div_eq_of_lt h2, decide_eq_true h2, Bool.true_and, Nat.add_zero]
      have e2 : (!decide (p < sh) && v.getLsbD (p - sh)) = false := by
        by_cases h3 : p < sh
        · rw [decide_eq_true h3]; rfl
        · rw [hv (p - sh) (by omega)]
          have : (p - sh) % (2 * (2 * sh)) = 2 * (2 * sh) - sh + q := by
            have ha0 : a ≠ 0 := by
              intro h
              rw [h] at e1
              simp at e1
              omega
            obtain ⟨a', rfl⟩ := Nat.exists_eq_succ_of_ne_zero ha0
            have : p - sh = 2 * (2 * sh) * a' + (2 * (2 * sh) - sh + q) := by
              rw [Nat.mul_succ] at hd
              omega
            rw [this, Nat.mul_add_mod, Nat.mod_eq_of_lt (by omega)]
          rw [this, decide_eq_false (show ¬ 2 * (2 * sh) - sh + q < 2 * sh by omega)]
          simp
      rw [e2, Bool.or_false]
      congr 2
      rw [Nat.mul_comm 2 a, Nat.mul_assoc]
    · have e2 : q % (2 * sh) = q - 2 * sh := by rw [Nat.mod_eq_sub_mod (by omega), Nat.mod_eq_of_lt (by omega)]
      have e3 : q / (2 * sh) = 1 := by
        rw [Nat.div_eq_sub_div (by omega) (by omega), Nat.div_eq_of_lt (by omega)]
      rw [decide_eq_false h2, Bool.false_and, Bool.false_or]
      rw [e2] at h1
      have e4 : p - sh = 2 * (2 * sh) * a + (q - sh) := by omega
      rw [hv (p - sh) (by omega), e4, Nat.mul_add_mod, Nat.mod_eq_of_lt (show q - sh < 2 * (2 * sh) by omega), Nat.mul_add_div (by omega), Nat.div_eq_of_lt (show q - sh < 2 * (2 * sh) by omega),
        decide_eq_true (show q - sh < 2 * sh by omega), decide_eq_false (show ¬ p < sh by omega), e2, e3, Nat.add_zero]
      simp only [Bool.not_false, Bool.true_and]
      congr 1
      rw [Nat.add_mul, Nat.one_mul, Nat.mul_comm 2 a, Nat.mul_assoc]
      omega
  · rw [decide_eq_false h1, Bool.and_false, Bool.false_and]

theorem expand_spec (v : Word) (hv : ∀ p, 32 ≤ p → v.getLsbD p = false) : ∀ p, p < 64 → (expand v).getLsbD p = (decide (p % 2 = 0) && v.getLsbD (p / 2)) := by
  have h0 : Spread 32 (fun k => v.getLsbD k) v := by
    intro p hp
    rw [Nat.mod_eq_of_lt (show p < 2 * 32 by omega), Nat.div_eq_of_lt (show p < 2 * 32 by omega), Nat.zero_mul, Nat.zero_add]
    by_cases h : p < 32
    · rw [decide_eq_true h]; rfl
    · rw [decide_eq_false h, hv p (by omega)]; rfl
  have h1 := spread_step (sh := 16) (m := 0x0000ffff0000ffff#64) h0 (by decide +kernel) (by decide)
  have h2 := spread_step (sh := 8) (m := 0x00ff00ff00ff00ff#64) h1 (by decide +kernel) (by decide)
  have h3 := spread_step (sh := 4) (m := 0x0f0f0f0f0f0f0f0f#64) h2 (by decide +kernel) (by decide)
  have h4 := spread_step (sh := 2) (m := 0x3333333333333333#64) h3 (by decide +kernel) (by decide)
  have h5 := spread_step (sh := 1) (m := 0x5555555555555555#64) h4 (by decide +kernel) (by decide)
  intro p hp
  show (step _ _ _).getLsbD p = _
  rw [h5 p hp]
  by_cases h : p % 2 = 0
  · rw [decide_eq_true h, decide_eq_true (show p % (2 * 1) < 1 by omega)]
    congr 2
    omega
  · rw [decide_eq_false h, decide_eq_false (show ¬ p % (2 * 1) < 1 by omega)]
    rfl

theorem half_spec {x : List Word} {i : Nat} (h : i < 2 * x.length) :
    ∃ v, half x i = some v ∧ (∀ p, 32 ≤ p → v.getLsbD p = false) ∧ ∀ p, p < 32 → v.getLsbD p = bitL x (32 * i + p) := by
  have hlt : i / 2 < x.length := by omega
  unfold half
  rw [List.getElem?_eq_getElem hlt, Option.map_some]
  have hmask : ∀ p, (0xffffffff#64).getLsbD p = decide (p < 32) := by
    intro p
    by_cases hp : p < 64
    · have : ∀ p, p < 64 → (0xffffffff#64).getLsbD p = decide (p < 32) := by decide +kernel
      exact this p hp
    · rw [BitVec.getLsbD_of_ge _ _ (by omega), decide_eq_false (by omega)]
  refine ⟨_, rfl, fun p hp => ?_, fun p hp => ?_⟩
  · rw [BitVec.getLsbD_and, hmask, decide_eq_false (by omega), Bool.and_false]
  · rw [BitVec.getLsbD_and, hmask, decide_eq_true hp, Bool.and_true, BitVec.getLsbD_ushiftRight]
    unfold bitL
    rw [List.getD_eq_getElem?_getD, show (32 * i + p) / 64 = i / 2 by omega, List.getElem?_eq_getElem hlt, show (32 * i + p) % 64 = 32 * (i % 2) + p by omega]
    rfl

theorem interleaveBits_spec (x0 x1 : List Word) (n : Nat) (m0 : List Word) (hm : m0.length = (n + 63) / 64) (h0 : (n + 63) / 64 ≤ 2 * x0.length) (h1 : (n + 63) / 64 ≤ 2 * x1.length) :
    ∃ m, interleaveBits x0 x1 n m0 = some m ∧ m.length = (n + 63) / 64 ∧ ∀ k, k < n → bitL m k = if k % 2 = 0 then bitL x0 (k / 2) else bitL x1 (k / 2) := by
  unfold interleaveBits
  obtain ⟨m, e, hl, hI⟩ := forLoop_spec (fun i m => (half x0 i).bind fun e0 => (half x1 i).bind fun e1 => wr m i (expand e0 ||| (expand e1 <<< 1)))
    (fun i m => m.length = (n + 63) / 64 ∧ ∀ k, k < 64 * i → bitL m k = if k % 2 = 0 then bitL x0 (k / 2) else bitL x1 (k / 2)) ((n + 63) / 64) 0 m0 ⟨hm, fun k hk => by omega⟩ (by
      intro i m _ hi ⟨hl, hI⟩
      obtain ⟨v0, e0, hz0, hb0⟩ := half_spec (x := x0) (i := i) (by omega)
      obtain ⟨v1, e1, hz1, hb1⟩ := half_spec (x := x1) (i := i) (by omega)
      rw [e0, Option.bind_some, e1, Option.bind_some]
      have hlt : i < m.length := by omega
      refine ⟨_, wr_some hlt _, by rw [List.length_set]; exact hl, fun k hk => ?_⟩
      rw [bitL_set hlt]
      by_cases hki : k / 64 = i
      · rw [if_pos hki, BitVec.getLsbD_or, BitVec.getLsbD_shiftLeft, expand_spec v0 hz0 _ (by omega), decide_eq_true (show k % 64 < 64 by omega), Bool.true_and]
        by_cases h2 : k % 2 = 0
        · rw [if_pos h2, decide_eq_true (show k % 64 % 2 = 0 by omega), Bool.true_and, hb0 _ (by omega), show 32 * i + k % 64 / 2 = k / 2 by omega]
          have : (!decide (k % 64 < 1) && (expand v1).getLsbD (k % 64 - 1)) = false := by
            by_cases h3 : k % 64 < 1
            · rw [decide_eq_true h3]; rfl
            · rw [expand_spec v1 hz1 _ (by omega), decide_eq_false (show ¬ (k % 64 - 1) % 2 = 0 by omega)]
              simp
          rw [this, Bool.or_false]
        · rw [if_neg h2, decide_eq_false (show ¬ k % 64 % 2 = 0 by omega), Bool.false_and, Bool.false_or, decide_eq_false (show ¬ k % 64 < 1 by omega), expand_spec v1 hz1 _ (by omega),
            decide_eq_true (show (k % 64 - 1) % 2 = 0 by omega), hb1 _ (by omega), show 32 * i + (k % 64 - 1) / 2 = k / 2 by omega]
          rfl
      · rw [if_neg hki]
        exact hI k (by omega))
  exact ⟨m, e, hl, fun k hk => hI k (by omega)⟩

end Verif.Transpose
