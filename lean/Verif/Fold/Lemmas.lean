import Verif.Fold.Model
import Verif.Fold.Spec
/-! # Lemmas for boolean folds -/
namespace Verif.Fold
open Verif.Bits Spec

/-- Number of true values among the first `n`. -/
def cnt (b : Nat → Bool) : Nat → Nat
  | 0 => 0
  | n+1 => cnt b n + (if b n then 1 else 0)

theorem cnt_congr {a b : Nat → Bool} {n : Nat} (h : ∀ i, i < n → a i = b i) : cnt a n = cnt b n := by
  induction n with
  | zero => rfl
  | succ n ih => simp only [cnt, ih fun i hi => h i (by omega), h n (by omega)]

theorem cnt_add (b : Nat → Bool) (m n : Nat) : cnt b (m+n) = cnt b m + cnt (fun i => b (m+i)) n := by
  induction n with
  | zero => rfl
  | succ n ih => rw [← Nat.add_assoc]; simp only [cnt, ih]; omega

theorem cnt_false (n : Nat) : cnt (fun _ => false) n = 0 := by
  induction n with
  | zero => rfl
  | succ n ih => simp [cnt, ih]

theorem cnt_shift (b : Nat → Bool) (n : Nat) : cnt b (n+1) = (if b 0 then 1 else 0) + cnt (fun i => b (i+1)) n := by
  rw [Nat.add_comm n 1, cnt_add]
  simp only [cnt, Nat.zero_add]
  congr 1
  exact cnt_congr fun i _ => by rw [Nat.add_comm]

theorem POPC_eq (w : Word) : POPC w = cnt w.getLsbD 64 := by
  have : ∀ n, (List.range n).countP (fun i => w.getLsbD i) = cnt w.getLsbD n := by
    intro n
    induction n with
    | zero => rfl
    | succ n ih => rw [List.range_succ, List.countP_append, ih, cnt]; simp [List.countP_cons]
  exact this 64

theorem POPC_shl (w : Word) (q : Nat) (hq : q ≤ 64) : POPC (w <<< (64 - q)) = cnt w.getLsbD q := by
  rw [POPC_eq]
  have : cnt (w <<< (64 - q)).getLsbD ((64 - q) + q) = _ := cnt_add _ _ _
  rw [show 64 - q + q = 64 by omega] at this
  rw [this]
  have h1 : cnt (w <<< (64 - q)).getLsbD (64 - q) = 0 := by
    rw [← cnt_false (64 - q)]
    apply cnt_congr
    intro i hi
    rw [BitVec.getLsbD_shiftLeft]; simp [hi]
  rw [h1, Nat.zero_add]
  apply cnt_congr
  intro i hi
  rw [BitVec.getLsbD_shiftLeft]
  have h2 : ¬ (64 - q + i < 64 - q) := by omega
  have h3 : 64 - q + i - (64 - q) = i := by omega
  have h4 : 64 - q + i < 64 := by omega
  simp [h3, h4]

theorem bitF_word (x : Nat → Word) (k j : Nat) (hj : j < 64) : bitF x (64*k+j) = (x k).getLsbD j := by
  have h1 : (64*k+j)/64 = k := by omega
  have h2 : (64*k+j)%64 = j := by omega
  simp [bitF, h1, h2]

/-- Sums of per-word counts: `g` transforms words, `b'` is the transformed bit sequence. -/
theorem loop_cnt (x : Nat → Word) (g : Word → Word) (b' : Nat → Bool)
    (hb : ∀ k j, j < 64 → b' (64*k+j) = (g (x k)).getLsbD j) (l : Nat) :
    loop (fun r w => r + POPC (g w)) x 0 l = cnt b' (64*l) := by
  induction l with
  | zero => rfl
  | succ l ih =>
    rw [loop, ih, Nat.mul_succ, cnt_add, POPC_eq]
    congr 1
    exact cnt_congr fun j hj => (hb l j hj).symm

theorem total_cnt (x : Nat → Word) (g : Word → Word) (b' : Nat → Bool)
    (hb : ∀ k j, j < 64 → b' (64*k+j) = (g (x k)).getLsbD j) (am : Nat) :
    (if am % 64 ≠ 0 then loop (fun r w => r + POPC (g w)) x 0 (am >>> 6) + POPC (g (x (am >>> 6)) <<< (64 - am % 64))
      else loop (fun r w => r + POPC (g w)) x 0 (am >>> 6)) = cnt b' am := by
  rw [Nat.shiftRight_eq_div_pow, loop_cnt x g b' hb]
  have e : am = 64 * (am / 2^6) + am % 64 := by omega
  split
  · rw [POPC_shl _ _ (by omega)]
    conv => rhs; rw [e, cnt_add]
    congr 1
    exact cnt_congr fun j hj => (hb _ j (by omega)).symm
  · conv => rhs; rw [e]
    rw [show am % 64 = 0 by omega]; rfl

theorem bit_sum_eq (x : Nat → Word) (am : Nat) : bit_sum x am = cnt (bitF x) am :=
  total_cnt x id (bitF x) (fun k j hj => bitF_word x k j hj) am

/-- Exclusive or of the first `n` values. -/
def par (b : Nat → Bool) (n : Nat) : Bool := cnt b n % 2 = 1

theorem par_zero (b) : par b 0 = false := rfl
theorem par_succ (b : Nat → Bool) (n : Nat) : par b (n+1) = (par b n ^^ b n) := by
  have key : ∀ c : Bool, decide ((cnt b n + if c then 1 else 0) % 2 = 1) = (decide (cnt b n % 2 = 1) ^^ c) := by
    intro c
    rcases Nat.mod_two_eq_zero_or_one (cnt b n) with h | h
    · have : (cnt b n + 1) % 2 = 1 := by omega
      cases c <;> simp [h, this]
    · have : (cnt b n + 1) % 2 = 0 := by omega
      cases c <;> simp [h, this]
  exact key (b n)

theorem par_xor (a b : Nat → Bool) (n : Nat) : par (fun i => a i ^^ b i) n = (par a n ^^ par b n) := by
  induction n with
  | zero => rfl
  | succ n ih =>
    rw [par_succ, par_succ, par_succ, ih]
    cases par a n <;> cases par b n <;> cases a n <;> cases b n <;> rfl

theorem par_add (b : Nat → Bool) (m n : Nat) : par b (m+n) = (par b m ^^ par (fun i => b (m+i)) n) := by
  induction n with
  | zero => simp [par_zero]
  | succ n ih => rw [← Nat.add_assoc, par_succ, par_succ, ih]; cases par b m <;> simp

theorem par_congr {a b : Nat → Bool} {n : Nat} (h : ∀ i, i < n → a i = b i) : par a n = par b n := by
  simp only [par, cnt_congr h]

theorem xor_words_par (x : Nat → Word) (l : Nat) : par (xor_words x l).getLsbD 64 = par (bitF x) (64*l) := by
  induction l with
  | zero =>
    show par (0#64 : Word).getLsbD 64 = false
    decide
  | succ l ih =>
    have e : xor_words x (l+1) = xor_words x l ^^^ x l := rfl
    rw [e, Nat.mul_succ, par_add, ← ih]
    have : (xor_words x l ^^^ x l).getLsbD = fun i => (xor_words x l).getLsbD i ^^ (x l).getLsbD i := by
      funext i; exact BitVec.getLsbD_xor
    rw [this, par_xor]
    congr 1
    exact par_congr fun j hj => (bitF_word x l j hj).symm

theorem fold_ne_eq (x : Nat → Word) (am : Nat) : fold_ne x am = par (bitF x) am := by
  have e : am = 64 * (am / 2^6) + am % 64 := by omega
  have hpop : ∀ w : Word, decide (POPC w % 2 = 1) = par w.getLsbD 64 := fun w => by rw [par, POPC_eq]
  unfold fold_ne
  simp only
  rw [hpop, Nat.shiftRight_eq_div_pow]
  by_cases hq : am % 64 = 0
  · rw [if_neg (by simp [hq]), xor_words_par]
    conv => rhs; rw [e, hq]
    rfl
  · rw [if_pos hq]
    have : (xor_words x (am / 2^6) ^^^ x (am / 2^6) <<< (64 - am % 64)).getLsbD
        = fun i => (xor_words x (am / 2^6)).getLsbD i ^^ (x (am / 2^6) <<< (64 - am % 64)).getLsbD i := by
      funext i; exact BitVec.getLsbD_xor
    rw [this, par_xor, xor_words_par]
    conv => rhs; rw [e, par_add]
    congr 1
    rw [par, ← POPC_eq, POPC_shl _ _ (by omega), par]
    rw [cnt_congr (a := fun i => bitF x (64 * (am / 2^6) + i)) (b := (x (am / 2^6)).getLsbD) fun j hj => bitF_word x _ j (by omega)]

theorem bit_diff_eq (x : Nat → Word) (am : Nat) :
    bit_diff x am = (cnt (fun i => bitF x i ^^ decide (i % 2 = 1)) am : Int) - (am / 2 : Nat) := by
  have haa : ∀ j : Fin 64, (0xAAAAAAAAAAAAAAAA#64).getLsbD j = decide (j.val % 2 = 1) := by decide
  have := total_cnt x (· ^^^ 0xAAAAAAAAAAAAAAAA#64) (fun i => bitF x i ^^ decide (i % 2 = 1)) (fun k j hj => by
    have h := haa ⟨j, hj⟩
    simp only at h
    rw [bitF_word x k j hj, BitVec.getLsbD_xor, h]
    congr 2; simp only [eq_iff_iff]; omega) am
  unfold bit_diff
  simp only
  rw [← this]

/-! ## First occurrence -/

/-- Index of the first `v` among the first `n` values, or `n`. -/
def firstIdx (b : Nat → Bool) (v : Bool) : Nat → Nat
  | 0 => 0
  | n+1 => if b 0 = v then 0 else 1 + firstIdx (fun i => b (i+1)) v n

theorem firstIdx_spec (b : Nat → Bool) (v : Bool) (n : Nat) :
    firstIdx b v n ≤ n ∧ (∀ i, i < firstIdx b v n → b i ≠ v) ∧ (firstIdx b v n < n → b (firstIdx b v n) = v) := by
  induction n generalizing b with
  | zero => simp [firstIdx]
  | succ n ih =>
    simp only [firstIdx]
    split
    · rename_i h; simp [h]
    · rename_i h
      have ⟨h1, h2, h3⟩ := ih (fun i => b (i+1))
      refine ⟨by omega, ?_, ?_⟩
      · intro i hi
        cases i with
        | zero => exact h
        | succ i => exact h2 i (by omega)
      · intro hlt
        have := h3 (by omega)
        rwa [Nat.add_comm 1]

theorem firstIdx_unique {b : Nat → Bool} {v : Bool} {n k : Nat} (hk : k ≤ n) (h1 : ∀ i, i < k → b i ≠ v)
    (h2 : k < n → b k = v) : firstIdx b v n = k := by
  have ⟨g1, g2, g3⟩ := firstIdx_spec b v n
  rcases Nat.lt_trichotomy (firstIdx b v n) k with h | h | h
  · exact absurd (g3 (by omega)) (h1 _ h)
  · exact h
  · exact absurd (h2 (by omega)) (g2 _ h)

theorem CTZ_spec {w : Word} {c : Nat} (h : CTZ w = some c) :
    c < 64 ∧ w.getLsbD c = true ∧ ∀ i, i < c → w.getLsbD i = false := by
  have := List.find?_range_eq_some.1 h
  refine ⟨by simpa using this.2.1, this.1, fun i hi => ?_⟩
  simpa using this.2.2 i hi

theorem CTZ_isSome {w : Word} (h : w ≠ 0#64) : ∃ c, CTZ w = some c := by
  cases hc : CTZ w with
  | some c => exact ⟨c, rfl⟩
  | none =>
    exfalso
    apply h
    apply word_ext
    intro i hi
    have := List.find?_eq_none.1 hc i (by simpa using hi)
    simpa using this

theorem flip_bit (v : Bool) (w : Word) (i : Nat) (hi : i < 64) : (flipMask v ^^^ w).getLsbD i = (w.getLsbD i == v) := by
  rw [BitVec.getLsbD_xor]
  have h0 : ∀ j : Fin 64, (flipMask false).getLsbD j = true := by decide
  have h1 : ∀ j : Fin 64, (flipMask true).getLsbD j = false := by decide
  have h0' := h0 ⟨i, hi⟩
  have h1' := h1 ⟨i, hi⟩
  simp only at h0' h1'
  cases v
  · rw [h0']; cases w.getLsbD i <;> rfl
  · rw [h1']; cases w.getLsbD i <;> rfl

theorem flip_zero {v : Bool} {w : Word} (h : flipMask v ^^^ w = 0#64) (i : Nat) (hi : i < 64) : w.getLsbD i ≠ v := by
  have := congrArg (fun z => BitVec.getLsbD z i) h
  simp only [flip_bit v w i hi] at this
  simpa using this

theorem ones_shl (q i : Nat) (hi : i < 64) : (~~~0#64 <<< q).getLsbD i = decide (q ≤ i) := by
  rw [BitVec.getLsbD_shiftLeft, BitVec.getLsbD_not]
  by_cases h : q ≤ i
  · have : ¬ i < q := by omega
    have h2 : i - q < 64 := by omega
    simp [hi, h, h2]
  · have : i < q := by omega
    simp [this, h]

theorem bit_find_go (x : Nat → Word) (ia : Nat) (v : Bool) : ∀ fuel i, i + fuel = ia / 64 →
    (∀ j, j < 64*i → bitF x j ≠ v) → bit_find.go x ia (flipMask v) (ia/64) (ia%64) i fuel = some (firstIdx (bitF x) v ia) := by
  intro fuel
  induction fuel with
  | zero =>
    intro i hi hpre
    have hi' : i = ia/64 := by omega
    subst hi'
    simp only [bit_find.go]
    have hne : (flipMask v ^^^ x (ia/64)) ||| (~~~0#64 <<< (ia%64)) ≠ 0#64 := by
      intro h0
      have := congrArg (fun z => BitVec.getLsbD z (ia%64)) h0
      simp only [BitVec.getLsbD_or, ones_shl _ _ (show ia%64 < 64 by omega)] at this
      simp at this
    obtain ⟨c, hc⟩ := CTZ_isSome hne
    have ⟨c1, c2, c3⟩ := CTZ_spec hc
    rw [hc]
    simp only [Option.map_some, Option.some.injEq]
    have hor : (ia - ia % 64 ||| c) = 64 * (ia/64) + c := by
      rw [show ia - ia % 64 = (ia/64) <<< 6 by rw [Nat.shiftLeft_eq]; omega, ← Nat.shiftLeft_add_eq_or_of_lt (by omega), Nat.shiftLeft_eq]
      omega
    rw [hor]
    have hcq : c ≤ ia % 64 := by
      rcases Nat.lt_or_ge (ia%64) c with h | h
      · have := c3 _ h
        rw [BitVec.getLsbD_or, ones_shl _ _ (by omega)] at this
        simp at this
      · exact h
    symm
    apply firstIdx_unique (by omega)
    · intro j hj
      by_cases hj' : j < 64 * (ia/64)
      · exact hpre j hj'
      · obtain ⟨t, rfl⟩ : ∃ t, j = 64*(ia/64) + t := ⟨j - 64*(ia/64), by omega⟩
        have := c3 t (by omega)
        rw [BitVec.getLsbD_or, flip_bit _ _ _ (by omega)] at this
        rw [bitF_word _ _ _ (by omega)]
        simp only [Bool.or_eq_false_iff] at this
        simpa using this.1
    · intro hlt
      rw [bitF_word _ _ _ (by omega)]
      rw [BitVec.getLsbD_or, flip_bit _ _ _ (by omega), ones_shl _ _ (by omega)] at c2
      have : ¬ ia % 64 ≤ c := by omega
      simpa [this] using c2
  | succ fuel ih =>
    intro i hi hpre
    simp only [bit_find.go]
    by_cases h : flipMask v ^^^ x i = 0#64
    · rw [if_neg (by simp [h])]
      apply ih (i+1) (by omega)
      intro j hj
      by_cases hj' : j < 64*i
      · exact hpre j hj'
      · obtain ⟨t, rfl⟩ : ∃ t, j = 64*i + t := ⟨j - 64*i, by omega⟩
        rw [bitF_word _ _ _ (by omega)]
        exact flip_zero h t (by omega)
    · rw [if_pos h]
      obtain ⟨c, hc⟩ := CTZ_isSome h
      have ⟨c1, c2, c3⟩ := CTZ_spec hc
      rw [hc]
      simp only [Option.map_some, Option.some.injEq]
      symm
      apply firstIdx_unique (by omega)
      · intro j hj
        by_cases hj' : j < 64*i
        · exact hpre j hj'
        · obtain ⟨t, rfl⟩ : ∃ t, j = 64*i + t := ⟨j - 64*i, by omega⟩
          rw [bitF_word _ _ _ (by omega)]
          have := c3 t (by omega)
          rw [flip_bit _ _ _ (by omega)] at this
          simpa using this
      · intro _
        rw [bitF_word _ _ _ c1]
        rw [flip_bit _ _ _ c1] at c2
        simpa using c2

theorem bit_find_eq (x : Nat → Word) (ia : Nat) (v : Bool) : bit_find x ia v = some (firstIdx (bitF x) v ia) :=
  bit_find_go x ia v (ia/64) 0 (by omega) (by intro j hj; omega)

theorem low_mask (q : Nat) (hq : q < 64) (i : Nat) : ((1#64 <<< q) - 1#64).getLsbD i = decide (i < q) := by
  have h2 : (1#64 <<< q).toNat = 2^q := by
    have : 2^q < 2^64 := Nat.pow_lt_pow_right (by decide) hq
    rw [BitVec.toNat_shiftLeft, Nat.shiftLeft_eq, BitVec.toNat_ofNat]; simp; omega
  have h3 : ((1#64 <<< q) - 1#64).toNat = 2^q - 1 := by
    have : 0 < 2^q := Nat.two_pow_pos q
    have : 2^q < 2^64 := Nat.pow_lt_pow_right (by decide) hq
    rw [BitVec.toNat_sub, h2, BitVec.toNat_ofNat]; omega
  rw [BitVec.getLsbD, h3, Nat.testBit_two_pow_sub_one]

theorem bit_has_go (x : Nat → Word) (ia : Nat) (v : Bool) : ∀ fuel i, i + fuel = ia / 64 →
    (∀ j, j < 64*i → bitF x j ≠ v) →
    bit_has.go x (flipMask v) (ia/64) (ia%64) i fuel = decide (∃ j, j < ia ∧ bitF x j = v) := by
  intro fuel
  induction fuel with
  | zero =>
    intro i hi hpre
    have hi' : i = ia/64 := by omega
    subst hi'
    simp only [bit_has.go]
    rw [Bool.eq_iff_iff, decide_eq_true_eq, Bool.and_eq_true, decide_eq_true_eq, decide_eq_true_eq]
    constructor
    · rintro ⟨hq, hne⟩
      obtain ⟨c, hc⟩ := CTZ_isSome hne
      have ⟨c1, c2, _⟩ := CTZ_spec hc
      rw [BitVec.xor_comm, BitVec.getLsbD_and, flip_bit _ _ _ c1, low_mask _ (by omega) _] at c2
      simp only [Bool.and_eq_true, beq_iff_eq, decide_eq_true_eq] at c2
      exact ⟨64*(ia/64) + c, by omega, by rw [bitF_word _ _ _ c1]; exact c2.1⟩
    · rintro ⟨j, hj, hb⟩
      have hj' : ¬ j < 64*(ia/64) := fun h => hpre j h hb
      obtain ⟨t, rfl⟩ : ∃ t, j = 64*(ia/64) + t := ⟨j - 64*(ia/64), by omega⟩
      refine ⟨by omega, fun h0 => ?_⟩
      have := congrArg (fun z => BitVec.getLsbD z t) h0
      rw [BitVec.xor_comm, BitVec.getLsbD_and, flip_bit _ _ _ (by omega), low_mask _ (by omega) _] at this
      rw [bitF_word _ _ _ (by omega)] at hb
      have ht : t < ia % 64 := by omega
      simp [hb, ht] at this
  | succ fuel ih =>
    intro i hi hpre
    simp only [bit_has.go]
    rw [BitVec.xor_comm]
    by_cases h : flipMask v ^^^ x i = 0#64
    · rw [if_neg (by simp [h])]
      apply ih (i+1) (by omega)
      intro j hj
      by_cases hj' : j < 64*i
      · exact hpre j hj'
      · obtain ⟨t, rfl⟩ : ∃ t, j = 64*i + t := ⟨j - 64*i, by omega⟩
        rw [bitF_word _ _ _ (by omega)]
        exact flip_zero h t (by omega)
    · rw [if_pos h]
      obtain ⟨c, hc⟩ := CTZ_isSome h
      have ⟨c1, c2, c3⟩ := CTZ_spec hc
      rw [flip_bit _ _ _ c1] at c2
      symm
      rw [decide_eq_true_eq]
      exact ⟨64*i + c, by omega, by rw [bitF_word _ _ _ c1]; simpa using c2⟩

theorem bit_has_eq (x : Nat → Word) (ia : Nat) (v : Bool) : bit_has x ia v = decide (∃ j, j < ia ∧ bitF x j = v) :=
  bit_has_go x ia v (ia/64) 0 (by omega) (by intro j hj; omega)

end Verif.Fold
