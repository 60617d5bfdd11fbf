import Verif.Match.Model
import Verif.Fold.Lemmas
/-!
# `wyhash` depends on the bytes of the key only: proofs
-/
namespace Verif.Match
open Verif.Bits (Word bitF)

variable {p q : Nat → BitVec 8} {s : Nat → Word}

theorem rd8_congr {i : Nat} (h : ∀ k, k < 8 → p (i+k) = q (i+k)) : rd8 p i = rd8 q i := by
  unfold rd8
  simp only [show List.range 8 = [0,1,2,3,4,5,6,7] from rfl, List.foldl]
  rw [h 0 (by omega), h 1 (by omega), h 2 (by omega), h 3 (by omega), h 4 (by omega), h 5 (by omega), h 6 (by omega), h 7 (by omega)]

theorem rd8_bit (p : Nat → BitVec 8) (i j : Nat) (hj : j < 64) : (rd8 p i).getLsbD j = (p (i + j/8)).getLsbD (j%8) := by
  unfold rd8
  simp only [show List.range 8 = [0,1,2,3,4,5,6,7] from rfl, List.foldl, BitVec.getLsbD_or, BitVec.getLsbD_shiftLeft, BitVec.getLsbD_setWidth,
    BitVec.getLsbD_zero, Bool.false_or]
  have hz : ∀ (b : BitVec 8) k, 8 ≤ k → b.getLsbD k = false := fun b k hk => BitVec.getLsbD_of_ge b k hk
  have key : ∀ c, j/8 = c → c < 8 → ∀ d, d < 8 → (decide (j < 64) && !decide (j < 8*d) && (decide (j - 8*d < 64) && (p (i+d)).getLsbD (j - 8*d))) =
      if d = c then (p (i+c)).getLsbD (j%8) else false := by
    intro c hc hc8 d hd
    by_cases e : d = c
    · subst e
      rw [if_pos rfl, decide_eq_true hj, decide_eq_false (by omega), decide_eq_true (by omega), show j - 8*d = j%8 by omega]
      rfl
    · rw [if_neg e]
      by_cases hlt : j < 8*d
      · simp [hlt]
      · rw [hz _ _ (by omega)]; simp
  obtain ⟨c, hc⟩ : ∃ c, j/8 = c := ⟨_, rfl⟩
  have hc8 : c < 8 := by omega
  rw [hc]
  rw [key c hc hc8 0 (by omega), key c hc hc8 1 (by omega), key c hc hc8 2 (by omega), key c hc hc8 3 (by omega),
    key c hc hc8 4 (by omega), key c hc hc8 5 (by omega), key c hc hc8 6 (by omega), key c hc hc8 7 (by omega)]
  generalize (p (i+c)).getLsbD (j%8) = b
  have : c = 0 ∨ c = 1 ∨ c = 2 ∨ c = 3 ∨ c = 4 ∨ c = 5 ∨ c = 6 ∨ c = 7 := by omega
  rcases this with rfl | rfl | rfl | rfl | rfl | rfl | rfl | rfl <;> simp

theorem wy48_congr {len : Nat} (h : ∀ i, i < len → p i = q i) : ∀ (n a i : Nat) (x y z : Word), i > 48 → a + i = len →
    wy48 p s n a i x y z = wy48 q s n a i x y z ∧ (wy48 q s n a i x y z).1 + (wy48 q s n a i x y z).2.1 = len
  | 0, a, i, x, y, z, _, e => ⟨rfl, e⟩
  | n+1, a, i, x, y, z, hi, e => by
    have r : ∀ k, k ≤ 40 → rd8 p (a+k) = rd8 q (a+k) := fun k hk => rd8_congr fun j hj => h _ (by omega)
    have r0 : rd8 p a = rd8 q a := r 0 (by omega)
    rw [wy48, wy48]
    simp only [r0, r 8 (by omega), r 16 (by omega), r 24 (by omega), r 32 (by omega), r 40 (by omega)]
    by_cases hc : i - 48 > 48
    · simp only [if_pos hc]; exact wy48_congr h n (a+48) (i-48) _ _ _ hc (by omega)
    · simp only [if_neg hc, true_and]; omega

theorem wy16_congr {len : Nat} (h : ∀ i, i < len → p i = q i) : ∀ (n a i : Nat) (x : Word), a + i = len →
    wy16 p s n a i x = wy16 q s n a i x ∧ (wy16 q s n a i x).1 + (wy16 q s n a i x).2.1 = len
  | 0, a, i, x, e => ⟨rfl, e⟩
  | n+1, a, i, x, e => by
    rw [wy16, wy16]
    by_cases hc : i > 16
    · have r : ∀ k, k ≤ 8 → rd8 p (a+k) = rd8 q (a+k) := fun k hk => rd8_congr fun j hj => h _ (by omega)
      have r0 : rd8 p a = rd8 q a := r 0 (by omega)
      rw [if_pos hc, if_pos hc, r0, r 8 (by omega)]
      exact wy16_congr h n (a+16) (i-16) _ (by omega)
    · rw [if_neg hc, if_neg hc]; exact ⟨rfl, e⟩

/-- The hash depends on the bytes of the key, not on what follows them in memory. -/
theorem wyhash_congr {len : Nat} (h : ∀ i, i < len → p i = q i) (seed : Word) : wyhash p len seed s = wyhash q len seed s := by
  unfold wyhash
  by_cases h16 : len ≤ 16
  · simp only [if_pos h16]
    by_cases he : len = 16
    · simp only [if_pos he, rd8_congr (p := p) (q := q) (i := 0) (fun k hk => h _ (by omega)), rd8_congr (p := p) (q := q) (i := 8) (fun k hk => h _ (by omega))]
    · simp only [if_neg he]
      have m : ∀ b, b ≤ len → len - b < 8 → (8*len) % 64 = 8*(len-b) →
          rd8 p b &&& ((1#64 <<< ((8*len)%64)) - 1#64) = rd8 q b &&& ((1#64 <<< ((8*len)%64)) - 1#64) := by
        intro b hb hl hm
        apply Bits.word_ext
        intro j hj
        rw [BitVec.getLsbD_and, BitVec.getLsbD_and, Fold.low_mask _ (Nat.mod_lt _ (by omega)), hm]
        by_cases hjl : j < 8*(len-b)
        · rw [rd8_bit _ _ _ hj, rd8_bit _ _ _ hj, h _ (by omega)]
        · simp [hjl]
      by_cases h8 : len ≥ 8
      · simp only [if_pos h8, rd8_congr (p := p) (q := q) (i := 0) (fun k hk => h _ (by omega)), m 8 h8 (by omega) (by omega)]
      · simp only [if_neg h8, m 0 (by omega) (by omega) (by omega)]
  · simp only [if_neg h16]
    have t1 : (if len > 48 then wy48 p s len 0 len (seed ^^^ s 0) (seed ^^^ s 0) (seed ^^^ s 0) else (0, len, seed ^^^ s 0)) =
        (if len > 48 then wy48 q s len 0 len (seed ^^^ s 0) (seed ^^^ s 0) (seed ^^^ s 0) else (0, len, seed ^^^ s 0)) ∧
        ∀ t, t = (if len > 48 then wy48 q s len 0 len (seed ^^^ s 0) (seed ^^^ s 0) (seed ^^^ s 0) else (0, len, seed ^^^ s 0)) → t.1 + t.2.1 = len := by
      by_cases h48 : len > 48
      · simp only [if_pos h48]
        obtain ⟨e1, e2⟩ := wy48_congr (s := s) h len 0 len (seed ^^^ s 0) (seed ^^^ s 0) (seed ^^^ s 0) h48 (by omega)
        exact ⟨e1, fun t e => by rw [e]; exact e2⟩
      · simp only [if_neg h48]
        exact ⟨trivial, fun t e => by rw [e]; exact Nat.zero_add _⟩
    obtain ⟨e1, e2⟩ := t1
    rw [e1]
    generalize (if len > 48 then wy48 q s len 0 len (seed ^^^ s 0) (seed ^^^ s 0) (seed ^^^ s 0) else (0, len, seed ^^^ s 0)) = t at e2 ⊢
    obtain ⟨f1, f2⟩ := wy16_congr (s := s) h len t.1 t.2.1 t.2.2 (e2 t rfl)
    rw [f1]
    generalize wy16 q s len t.1 t.2.1 t.2.2 = u at f2 ⊢
    rw [f2, rd8_congr (p := p) (q := q) (i := len - 16) (fun k hk => h _ (by omega)), rd8_congr (p := p) (q := q) (i := len - 8) (fun k hk => h _ (by omega))]

end Verif.Match
