import Verif.BitCopy.Lemmas
/-! # C15: copying and filling bit ranges; C16: reversing a boolean list -/
namespace Verif.BitCopy
open Verif.Bits

/-- C15. After copying `l` bits from offset `xs` of `x` to offset `rs` of `r`, destination bit `i` is source bit
`xs + (i - rs)` inside the range and unchanged outside, for all offsets, lengths and memory contents. Source words at
negative indices (the word before the array) may be read but have no influence. -/
theorem bit_cpy_correct (r : Nat → Word) (rs : Nat) (x : Int → Word) (xs l i : Nat) :
    bitF (bit_cpy r rs x xs l).mem i =
      if rs ≤ i ∧ i < rs + l then bitF (fun k => x k) (xs + (i - rs)) else bitF r i := by
  unfold bitF
  rw [bit_cpy_word r rs x xs l (i/64) (i%64) (by omega)]
  have h1 : 64 * (i/64) + i % 64 = i := by omega
  rw [h1]
  split
  · unfold bitZ
    have h2 : (64 * ((i/64 : Nat) : Int) + ((i%64 : Nat) : Int) + ((xs:Int) - rs)) = ((xs + (i - rs) : Nat) : Int) := by omega
    rw [h2]
    rw [show ((xs + (i - rs) : Nat) : Int) / 64 = (((xs + (i-rs)) / 64 : Nat) : Int) by omega,
      show ((xs + (i - rs) : Nat) : Int) % 64 = (((xs + (i-rs)) % 64 : Nat) : Int) by omega, Int.toNat_natCast]
  · rfl

/-- C15. Only words holding at least one destination bit are stored to. -/
theorem bit_cpy_writes (r : Nat → Word) (rs : Nat) (x : Int → Word) (xs l k : Nat)
    (h : k ∈ (bit_cpy r rs x xs l).log) : ∃ i, rs ≤ i ∧ i < rs + l ∧ i / 64 = k := by
  have fin : ∀ a b : Nat, rs/64 ≤ a → a ≤ b → l ≠ 0 ∧ (b * 64 < rs + l ∨ b = rs/64) → a = k →
      ∃ i, rs ≤ i ∧ i < rs + l ∧ i / 64 = k := by
    intro a b h1 h2 h3 h4
    subst h4
    by_cases ha : a = rs/64
    · exact ⟨rs, by omega, by omega, by omega⟩
    · exact ⟨64*a, by omega, by omega, by omega⟩
  unfold bit_cpy at h
  simp only [Nat.shiftRight_eq_div_pow, show (2:Nat)^6 = 64 from rfl] at h
  split at h
  · rename_i hti
    have hmid : ∀ s : St, ∀ t, (∀ j ∈ s.log, j = rs/64) → rs/64 ≤ t →
        k ∈ (if (rs + l) % 64 ≠ 0 then
          (copyWords x ((xs:Int) - rs) s t ((rs+l)/64 - t)).store ((rs+l)/64)
            ((READ x ((xs:Int) - rs) ((rs+l)/64) &&& mask ((rs+l) % 64)) |||
            ((copyWords x ((xs:Int) - rs) s t ((rs+l)/64 - t)).mem ((rs+l)/64) &&& ~~~mask ((rs+l) % 64)))
          else copyWords x ((xs:Int) - rs) s t ((rs+l)/64 - t)).log → ∃ i, rs ≤ i ∧ i < rs + l ∧ i / 64 = k := by
      intro s t hs ht hk
      have hcw : k ∈ (copyWords x ((xs:Int) - rs) s t ((rs+l)/64 - t)).log → ∃ i, rs ≤ i ∧ i < rs + l ∧ i / 64 = k := by
        intro hk
        rcases (copyWords_log _ _ _ _ _ _).1 hk with hk | hk
        · exact fin k k (by omega) (by omega) (by omega) rfl
        · have := hs k hk; exact fin k k (by omega) (by omega) (by omega) rfl
      split at hk
      · simp only [St.store, List.mem_cons] at hk
        rcases hk with hk | hk
        · exact fin k k (by omega) (by omega) (by omega) rfl
        · exact hcw hk
      · exact hcw hk
    by_cases hq : rs % 64 = 0
    · rw [if_neg (show ¬ rs % 64 ≠ 0 by omega)] at h
      exact hmid _ _ (by simp) (by omega) h
    · rw [if_pos hq] at h
      exact hmid _ _ (by simp [St.store]) (by omega) h
  · split at h
    · simp only [St.store, List.mem_cons, List.not_mem_nil, or_false] at h
      exact fin k k (by omega) (by omega) (by omega) rfl
    · simp at h

/-- C15. Filling: the `l` bits from `ms` become `v`, all others are unchanged. -/
theorem bit_fill_correct (p : Nat → Word) (ms : Nat) (v : Bool) (l i : Nat) :
    bitF (bit_fill p ms v l).mem i = if ms ≤ i ∧ i < ms + l then v else bitF p i := by
  unfold bitF
  rw [bit_fill_word p ms v l (i/64) (i%64) (by omega)]
  have h1 : 64 * (i/64) + i % 64 = i := by omega
  rw [h1]

/-- C15. Filling stores only to words from the first bit's word up to the word of the end position; the latter may lie
just past the last filled bit, and is then stored back unchanged. -/
theorem bit_fill_writes (p : Nat → Word) (ms : Nat) (v : Bool) (l k : Nat) (h : k ∈ (bit_fill p ms v l).log) :
    ms / 64 ≤ k ∧ k ≤ (ms + l) / 64 ∧ (ms + l ≤ 64 * k → (bit_fill p ms v l).mem k = p k) := by
  refine ⟨?_, ?_, ?_⟩
  · unfold bit_fill at h
    simp only [Nat.shiftRight_eq_div_pow, show (2:Nat)^6 = 64 from rfl] at h
    split at h
    · simp [St.store] at h; omega
    · simp only [St.store, List.mem_cons] at h
      rcases h with h | h
      · omega
      · rcases (fillWords_log _ _ _ _ _).1 h with h | h
        · omega
        · simp at h; omega
  · unfold bit_fill at h
    simp only [Nat.shiftRight_eq_div_pow, show (2:Nat)^6 = 64 from rfl] at h
    split at h
    · simp [St.store] at h; omega
    · simp only [St.store, List.mem_cons] at h
      rcases h with h | h
      · omega
      · rcases (fillWords_log _ _ _ _ _).1 h with h | h
        · omega
        · simp at h; omega
  · intro hk
    apply word_ext
    intro j hj
    rw [bit_fill_word p ms v l k j hj, if_neg (by omega)]

/-- C16. Element `i` of the reversed list is element `n-1-i` of the argument, for every length (the code handles `n ≤ 1`
separately, but the statement also holds for `n = 1`), whatever the padding and the initial contents of the result. -/
theorem reverse_bits_correct (xp rp0 : Nat → Word) (n : Nat) :
    listF (reverse_bits xp rp0 n) n = (listF xp n).reverse := by
  apply List.ext_getElem?
  intro i
  rw [getElem?_firstN]
  by_cases hi : i < n
  · rw [if_pos hi, List.getElem?_reverse (by simpa using hi), length_firstN, getElem?_firstN, if_pos (by omega)]
    congr 1
    unfold reverse_bits bitF
    simp only
    by_cases hq : n % 64 = 0
    · rw [if_neg (show ¬ n % 64 ≠ 0 by omega), if_pos (show i/64 < (n+63)/64 by omega), bit_reverse64_bit _ _ (by omega)]
      rw [show (n + 63)/64 - 1 - i/64 = (n - 1 - i)/64 by omega, show 63 - i % 64 = (n - 1 - i) % 64 by omega]
    · rw [if_pos hq]
      have hsh : (64 - n % 64) % 64 = 64 - n % 64 := by omega
      rw [hsh]
      by_cases he : i/64 = (n+63)/64 - 1
      · rw [if_pos he, BitVec.getLsbD_ushiftRight, shiftLoop_eq, if_neg (by omega), if_pos (by omega), bit_reverse64_bit _ _ (by omega)]
        rw [show (n + 63)/64 - 1 - ((n+63)/64 - 1) = (n - 1 - i)/64 by omega, show 63 - (64 - n % 64 + i % 64) = (n - 1 - i) % 64 by omega]
      · rw [if_neg he, shiftLoop_eq, if_pos (by omega), if_pos (by omega), if_pos (by omega), BitVec.getLsbD_or,
          BitVec.getLsbD_ushiftRight, BitVec.getLsbD_shiftLeft]
        by_cases hc : 64 - n % 64 + i % 64 < 64
        · have h1 : i % 64 < 64 - (64 - n % 64) := by omega
          rw [bit_reverse64_bit _ _ hc]
          simp only [h1, decide_true, Bool.not_true, Bool.and_false, Bool.false_and, Bool.or_false]
          rw [show (n + 63)/64 - 1 - i/64 = (n - 1 - i)/64 by omega, show 63 - (64 - n % 64 + i % 64) = (n - 1 - i) % 64 by omega]
        · have h1 : ¬ i % 64 < 64 - (64 - n % 64) := by omega
          have h2 : i % 64 < 64 := by omega
          rw [BitVec.getLsbD_of_ge _ _ (by omega), bit_reverse64_bit _ _ (by omega)]
          simp only [h1, h2, decide_true, decide_false, Bool.not_false, Bool.true_and, Bool.false_or]
          rw [show (n + 63)/64 - 1 - (i/64 + 1) = (n - 1 - i)/64 by omega,
            show 63 - (i % 64 - (64 - (64 - n % 64))) = (n - 1 - i) % 64 by omega]
  · rw [if_neg hi, List.getElem?_eq_none (by simpa using hi)]

/-- C16. Words outside the result's own words are not changed. -/
theorem reverse_bits_writes (xp rp0 : Nat → Word) (n k : Nat) (hn : 0 < n) (hk : (n + 63)/64 ≤ k) :
    reverse_bits xp rp0 n k = rp0 k := by
  unfold reverse_bits
  simp only
  split
  · show (if k = _ then _ else _) = _
    rw [if_neg (by omega), shiftLoop_eq, if_neg (by omega), if_neg (by omega)]
  · exact if_neg (by omega)

-- concrete cases: an unaligned copy crossing a word boundary, with the source word before the start read
example : (bit_cpy (fun _ => 0#64) 10 (fun i => if i = 0 then 0xFF#64 else ~~~0#64) 0 60).mem 0 = 0x3FC00#64 := by decide +kernel
example : (bit_cpy (fun _ => 0#64) 10 (fun i => if i = 0 then 0xFF#64 else ~~~0#64) 0 60).log = [1, 0] := by decide +kernel
example : (bit_fill (fun _ => 0#64) 60 true 8).mem 1 = 0xF#64 ∧ (bit_fill (fun _ => 0#64) 60 true 8).log = [1, 0] := by decide +kernel
example : listF (reverse_bits (fun i => if i = 0 then 0x1#64 else 0xFFFC#64) (fun _ => 0xABC#64) 67) 67
    = [true, false, false] ++ List.replicate 63 false ++ [true] := by decide +kernel

end Verif.BitCopy
