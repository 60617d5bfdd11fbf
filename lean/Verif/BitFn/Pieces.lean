import Verif.BitFn.Lemmas
/-!
# `•bit`: pieces of bits, and loops over them
-/
namespace Verif.BitFn
open Verif.Bits (Word bitF)

/-! ## Pieces -/

theorem num_lt (b : Nat → Bool) (p w : Nat) : num b p w < 2^w := by
  induction w with
  | zero => exact Nat.one_pos
  | succ w ih =>
    rw [num, Nat.pow_succ]
    cases b (p+w) <;> simp <;> omega

theorem num_testBit (b : Nat → Bool) (p w k : Nat) : (num b p w).testBit k = (decide (k < w) && b (p+k)) := by
  induction w with
  | zero => simp [num]
  | succ w ih =>
    have l := num_lt b p w
    rw [num, Nat.add_comm, Nat.testBit_two_pow_mul_add _ l, ih]
    by_cases h : k < w
    · simp [h]; intro; omega
    · rw [if_neg h]
      rcases Nat.lt_or_ge w k with g | g
      · have : k - w ≠ 0 := by omega
        have e : ¬ k < w + 1 := by omega
        have : (b (p+w)).toNat.testBit (k-w) = false := by
          obtain ⟨j, hj⟩ : ∃ j, k - w = j + 1 := ⟨k - w - 1, by omega⟩
          rw [hj, Nat.testBit_succ]
          cases b (p+w) <;> simp
        rw [this]; simp [e]
      · have e : k = w := by omega
        subst e
        cases b (p+k) <;> simp

theorem num_congr {b c : Nat → Bool} {p q w : Nat} (h : ∀ k, k < w → b (p+k) = c (q+k)) : num b p w = num c q w := by
  apply Nat.eq_of_testBit_eq
  intro k
  rw [num_testBit, num_testBit]
  by_cases hk : k < w
  · rw [h k hk]
  · simp [hk]

theorem piece_lt (w : Nat) (b : Nat → Bool) (i : Nat) : piece w b i < 2^w := num_lt _ _ _

theorem piece_rd {w : Nat} (hw : Wide w) (m : Mem) (i : Nat) : piece w (bitF m) i = (rd w m i).toNat := by
  apply Nat.eq_of_testBit_eq
  intro k
  unfold piece
  rw [num_testBit]
  by_cases hk : k < w
  · rw [decide_eq_true hk, Bool.true_and, ← rd_bit hw m i hk]; rfl
  · rw [decide_eq_false hk, Bool.false_and]
    exact (BitVec.getLsbD_of_ge _ _ (by omega)).symm

theorem rd_congr {w : Nat} (hw : Wide w) {m m' : Mem} {i : Nat} (h : ∀ p, p/w = i → bitF m p = bitF m' p) : rd w m i = rd w m' i := by
  apply BitVec.eq_of_getLsbD_eq
  intro k hk
  rw [rd_bit hw _ _ hk, rd_bit hw _ _ hk]
  apply h
  rw [Nat.mul_add_div hw.pos, Nat.div_eq_of_lt hk, Nat.add_zero]

/-- Pieces of bits that were combined one by one. -/
theorem piece_not {w : Nat} {b c : Nat → Bool} {i : Nat} (h : ∀ k, k < w → c (w*i+k) = !b (w*i+k)) :
    piece w c i = Op1.on w .not (piece w b i) := by
  have l := piece_lt w b i
  unfold Op1.on
  dsimp only
  apply Nat.eq_of_testBit_eq
  intro k
  rw [Nat.sub_sub, Nat.add_comm, Nat.testBit_two_pow_sub_succ l]
  unfold piece
  rw [num_testBit, num_testBit]
  by_cases hk : k < w
  · simp [hk, h k hk]
  · simp [hk]

/-- One bit of a bitwise function. -/
def Op2.bit : Op2 → Bool → Bool → Bool
  | .and, a, b => a && b
  | .or, a, b => a || b
  | _, a, b => a ^^ b

theorem piece_bitwise {op : Op2} (hop : op.bitwise = true) {w : Nat} {a b c : Nat → Bool} {i j : Nat}
    (h : ∀ k, k < w → c (w*i+k) = op.bit (a (w*j+k)) (b (w*i+k))) :
    piece w c i = op.on w (piece w a j) (piece w b i) := by
  apply Nat.eq_of_testBit_eq
  intro k
  have e : (piece w c i).testBit k = (decide (k < w) && op.bit (a (w*j+k)) (b (w*i+k))) := by
    unfold piece
    rw [num_testBit]
    by_cases hk : k < w
    · rw [h k hk]
    · simp [hk]
  rw [e]
  cases op with
  | and => unfold Op2.on piece; dsimp only; rw [Nat.testBit_and, num_testBit, num_testBit]; simp only [Op2.bit]; cases decide (k < w) <;> simp
  | or => unfold Op2.on piece; dsimp only; rw [Nat.testBit_or, num_testBit, num_testBit]; simp only [Op2.bit]; cases decide (k < w) <;> simp
  | xor => unfold Op2.on piece; dsimp only; rw [Nat.testBit_xor, num_testBit, num_testBit]; simp only [Op2.bit]; cases decide (k < w) <;> simp
  | add => cases hop
  | sub => cases hop
  | mul => cases hop

/-! ## Loops -/

theorem loop_put {g : Nat → Mem → Word} {m : Mem} (hg : ∀ i m', m' i = m i → g i m' = g i m) :
    ∀ n k, loop (fun i m => put m i (g i m)) n m k = if k < n then g k m else m k
  | 0, k => by simp [loop]
  | n+1, k => by
    rw [loop]
    have ih := loop_put hg n
    have e : ∀ (a : Mem) v, put a n v k = if k = n then v else a k := fun _ _ => rfl
    rw [e]
    by_cases h : k = n
    · subst h
      rw [if_pos rfl, if_pos (by omega)]
      exact hg _ _ (by rw [ih, if_neg (by omega)])
    · rw [if_neg h, ih]
      by_cases g : k < n
      · rw [if_pos g, if_pos (by omega)]
      · rw [if_neg g, if_neg (by omega)]

theorem loop_wr {w : Nat} (hw : Wide w) {g : Nat → Mem → BitVec w} {m : Mem}
    (hg : ∀ i m', (∀ p, p/w = i → bitF m' p = bitF m p) → g i m' = g i m) :
    ∀ n p, bitF (loop (fun i m => wr w m i (g i m)) n m) p = if p/w < n then (g (p/w) m).getLsbD (p%w) else bitF m p
  | 0, p => by simp [loop]
  | n+1, p => by
    rw [loop]
    have ih := loop_wr hw hg n
    rw [wr_bit hw]
    by_cases h : p/w = n
    · rw [if_pos h, if_pos (by omega), h]
      rw [hg n _ fun q hq => by rw [ih, if_neg (by omega)]]
    · rw [if_neg h, ih]
      by_cases g : p/w < n
      · rw [if_pos g, if_pos (by omega)]
      · rw [if_neg g, if_neg (by omega)]

theorem loop_rd {w : Nat} (hw : Wide w) {g : Nat → Mem → BitVec w} {m : Mem}
    (hg : ∀ i m', (∀ p, p/w = i → bitF m' p = bitF m p) → g i m' = g i m) {n i : Nat} (hi : i < n) :
    rd w (loop (fun i m => wr w m i (g i m)) n m) i = g i m := by
  apply BitVec.eq_of_getLsbD_eq
  intro k hk
  have e : (w*i+k)/w = i := by rw [Nat.mul_add_div hw.pos, Nat.div_eq_of_lt hk, Nat.add_zero]
  rw [rd_bit hw _ _ hk, loop_wr hw hg, e, if_pos hi, Nat.mul_add_mod, Nat.mod_eq_of_lt hk]

theorem loopU_some {w : Nat} {f : Nat → Option (BitVec w)} {v : Nat → BitVec w} :
    ∀ {n : Nat} {m : Mem}, (∀ i, i < n → f i = some (v i)) →
      loopU (fun i m => (f i).map (wr w m i)) n m = some (loop (fun i m => wr w m i (v i)) n m)
  | 0, _, _ => rfl
  | n+1, m, h => by
    rw [loopU, loopU_some (fun i hi => h i (by omega)), loop, Option.bind_some, h n (by omega)]
    rfl

/-- The bits below `n` of the last word are new. -/
theorem lastWord_bit {n : Nat} (hn : n < 2^64) (r v : Word) {j : Nat} (hj : j < n%64) : (lastWord n r v).getLsbD j = v.getLsbD j := by
  unfold lastWord
  have q : (2^64 - n) % 64 = 64 - n%64 := by omega
  rw [q, BitVec.getLsbD_xor, BitVec.getLsbD_and, BitVec.getLsbD_ushiftRight, BitVec.getLsbD_allOnes, BitVec.getLsbD_xor,
    decide_eq_true (show 64 - n%64 + j < 64 by omega)]
  cases r.getLsbD j <;> simp

/-- A loop over words with a last word that is changed in part: every bit below `n` is the bit of the new words. -/
theorem words_bit {n : Nat} (hn : n < 2^64) {m m1 : Mem} {v : Mem} {u : Word} (h : ∀ k, m1 k = if k < n/64 then v k else m k)
    (hu : u = v (n/64)) {p : Nat} (hp : p < n) :
    bitF (if (2^64 - n) % 64 ≠ 0 then put m1 (n/64) (lastWord n (m1 (n/64)) u) else m1) p = bitF v p := by
  by_cases q : (2^64 - n) % 64 ≠ 0
  · rw [if_pos q, put_bit]
    by_cases e : p/64 = n/64
    · rw [if_pos e, lastWord_bit hn _ _ (by omega), hu]
      unfold bitF
      rw [e]
    · rw [if_neg e]
      unfold bitF
      rw [h, if_pos (by omega)]
  · rw [if_neg q]
    unfold bitF
    rw [h, if_pos (by omega)]

theorem notLoop_bit {n : Nat} (hn : n < 2^64) (xp junk : Mem) (fresh : Bool) {p : Nat} (hp : p < n) :
    bitF (notLoop (fun m => if fresh then xp else m) n (if fresh then junk else xp)) p = !bitF xp p := by
  unfold notLoop
  dsimp only
  have hb : bitF (fun k => ~~~ xp k) p = !bitF xp p := by
    unfold bitF
    rw [BitVec.getLsbD_not, decide_eq_true (Nat.mod_lt _ (by decide)), Bool.true_and]
  rw [← hb]
  cases fresh with
  | true =>
    simp only [if_true]
    refine words_bit hn (m := junk) (v := fun k => ~~~ xp k) ?_ rfl hp
    exact loop_put (g := fun i _ => ~~~ xp i) (fun _ _ _ => rfl) _
  | false =>
    simp only [Bool.false_eq_true, if_false]
    have h := loop_put (g := fun i m => ~~~ m i) (m := xp) (fun i m' e => by rw [e]) (n/64)
    refine words_bit hn (m := xp) (v := fun k => ~~~ xp k) h ?_ hp
    rw [h, if_neg (by omega)]

theorem negLoop_rd {w : Nat} (hw : Wide w) (n : Nat) (xp junk : Mem) (fresh : Bool) {i : Nat} (hi : i < n/w) :
    rd w (negLoop w (fun m => if fresh then xp else m) n (if fresh then junk else xp)) i = -(rd w xp i) := by
  unfold negLoop
  cases fresh with
  | true =>
    simp only [if_true]
    exact loop_rd hw (g := fun i _ => -(rd w xp i)) (fun _ _ _ => rfl) hi
  | false =>
    simp only [Bool.false_eq_true, if_false]
    exact loop_rd hw (g := fun i m => -(rd w m i)) (m := xp) (fun i m' e => by rw [rd_congr hw e]) hi

theorem opword_bit {op : Op2} (hop : op.bitwise = true) (a b : Word) (j : Nat) : (op.word a b).getLsbD j = op.bit (a.getLsbD j) (b.getLsbD j) := by
  cases op with
  | and => exact BitVec.getLsbD_and
  | or => exact BitVec.getLsbD_or
  | xor => exact BitVec.getLsbD_xor
  | add => cases hop
  | sub => cases hop
  | mul => cases hop

theorem binLoop_bit {op : Op2} (hop : op.bitwise = true) {n : Nat} (hn : n < 2^64) (wp : Nat → Word) (xp junk : Mem) {p : Nat} (hp : p < n) :
    bitF (binLoop op wp xp n junk) p = op.bit (bitF wp p) (bitF xp p) := by
  unfold binLoop
  dsimp only
  have hb : bitF (fun k => op.word (wp k) (xp k)) p = op.bit (bitF wp p) (bitF xp p) := by
    unfold bitF
    exact opword_bit hop _ _ _
  rw [← hb]
  refine words_bit hn (m := junk) (v := fun k => op.word (wp k) (xp k)) ?_ rfl hp
  exact loop_put (g := fun i _ => op.word (wp i) (xp i)) (fun _ _ _ => rfl) _

/-- Every bit of the repeated word. -/
theorem spread_bit {ow : Nat} (how : 0 < ow) (v0 : Word) : ∀ (k a : Nat) (v : Word), ow * 2^a ≤ 64 → 64 ≤ ow * 2^(a+k) →
    64 % ow = 0 → (∀ j, j < 64 → v.getLsbD j = (decide (j < ow * 2^a) && v0.getLsbD (j % ow))) →
    ∀ j, j < 64 → (spread k (ow * 2^a) v).getLsbD j = v0.getLsbD (j % ow)
  | 0, a, v, h1, h2, _, hv, j, hj => by
    rw [spread, hv j hj, decide_eq_true (by rw [Nat.add_zero] at h2; omega), Bool.true_and]
  | k+1, a, v, h1, h2, h3, hv, j, hj => by
    rw [spread]
    by_cases h : ow * 2^a < 64
    · rw [if_pos h, show ow * 2^a * 2 = ow * 2^(a+1) by rw [Nat.pow_succ, Nat.mul_assoc]]
      have e2 : ow * 2^(a+1) = ow * 2^a * 2 := by rw [Nat.pow_succ, Nat.mul_assoc]
      have le : ow * 2^(a+1) ≤ 64 := by
        -- both sides are powers of two times `ow`
        obtain ⟨c, hc⟩ := Nat.dvd_of_mod_eq_zero h3
        rcases Nat.lt_or_ge 6 a with g | g
        · have : 2^7 ≤ 2^a := Nat.pow_le_pow_right (by decide) g
          have : 2^a ≤ ow * 2^a := Nat.le_mul_of_pos_left _ how
          omega
        · have ho : ow ≤ 64 := Nat.le_of_dvd (by decide) (Nat.dvd_of_mod_eq_zero h3)
          have : ow = 1 ∨ ow = 2 ∨ ow = 4 ∨ ow = 8 ∨ ow = 16 ∨ ow = 32 ∨ ow = 64 := by
            have : ∀ o, o ≤ 64 → 0 < o → 64 % o = 0 → o = 1 ∨ o = 2 ∨ o = 4 ∨ o = 8 ∨ o = 16 ∨ o = 32 ∨ o = 64 := by decide
            exact this ow ho how h3
          have ha : a = 0 ∨ a = 1 ∨ a = 2 ∨ a = 3 ∨ a = 4 ∨ a = 5 ∨ a = 6 := by omega
          rcases this with rfl | rfl | rfl | rfl | rfl | rfl | rfl <;>
            rcases ha with rfl | rfl | rfl | rfl | rfl | rfl | rfl <;> simp at h ⊢
      refine spread_bit how v0 k (a+1) _ le (by rw [show a + 1 + k = a + (k+1) by omega]; exact h2) h3 ?_ j hj
      intro j hj
      rw [BitVec.getLsbD_or, BitVec.getLsbD_shiftLeft, hv j hj, e2, decide_eq_true hj, Bool.true_and]
      by_cases g : j < ow * 2^a
      · rw [decide_eq_true g, decide_eq_true (show j < ow * 2^a * 2 by omega)]
        simp
      · rw [decide_eq_false g, hv (j - ow*2^a) (by omega)]
        have e : (j - ow*2^a) % ow = j % ow := by
          have : j = (j - ow*2^a) + ow*2^a := by omega
          conv => rhs; rw [this, Nat.add_mul_mod_self_left]
        rw [e]
        have : decide (j - ow*2^a < ow*2^a) = decide (j < ow * 2^a * 2) := decide_eq_decide.2 (by omega)
        rw [this]
        simp
    · rw [if_neg h, hv j hj, decide_eq_true (by omega), Bool.true_and]

theorem spread_low {ow : Nat} (how : 0 < ow) (h3 : 64 % ow = 0) (w : Word) {j : Nat} (hj : j < 64) :
    (spread 7 ow (w &&& (BitVec.allOnes 64 >>> (64-ow)))).getLsbD j = w.getLsbD (j % ow) := by
  have le : ow ≤ 64 := Nat.le_of_dvd (by decide) (Nat.dvd_of_mod_eq_zero h3)
  have hm : ∀ i, i < 64 → (w &&& (BitVec.allOnes 64 >>> (64-ow))).getLsbD i = (decide (i < ow) && w.getLsbD i) := by
    intro i hi
    rw [BitVec.getLsbD_and, BitVec.getLsbD_ushiftRight, BitVec.getLsbD_allOnes, Bool.and_comm]
    congr 1
    exact decide_eq_decide.2 (by omega)
  have := spread_bit how (w &&& (BitVec.allOnes 64 >>> (64-ow))) 7 0 (w &&& (BitVec.allOnes 64 >>> (64-ow))) (by simpa using le)
    (by
      have : 1 * 2^7 ≤ ow * 2^7 := Nat.mul_le_mul_right _ how
      rw [Nat.zero_add]; omega) h3 (fun j hj => by
        rw [hm j hj, Nat.pow_zero, Nat.mul_one]
        by_cases g : j < ow
        · rw [decide_eq_true g, Nat.mod_eq_of_lt g, hm j hj, decide_eq_true g]; simp
        · simp [g]) j hj
  rw [Nat.pow_zero, Nat.mul_one] at this
  have l := Nat.mod_lt j how
  rw [this, hm _ (by omega), decide_eq_true l, Bool.true_and]

end Verif.BitFn
