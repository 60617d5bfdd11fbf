import Verif.Rand.Deal
import Verif.Rand.Subset
import Verif.Rand.Range
import Verif.Slash.Props
import Verif.Select.Top
/-!
# Random number functions

All theorems hold for every sequence `rnd` of words that the generator could return, so for every seed (`stream seed` is the sequence of a seed).
`none` would be a read or write outside of memory, or undefined behaviour. `junk` is what fresh memory contains.
-/
namespace Verif.Rand
open Verif.Bits Verif.Fold Verif.Slash Verif.Select

/-- `Deal 𝕩` is a permutation of the numbers below `𝕩`. -/
theorem deal_permutation (rnd : Nat → Word) (x : Nat) (junk : Nat → Nat) (hx : x < 2^31) :
    ∃ r, deal rnd x junk = some (.ok r) ∧ r.Perm (List.range x) := deal_ok rnd x junk hx

example : deal (stream 7#64) 6 (fun _ => 9) = some (.ok [5, 0, 3, 2, 1, 4]) := by decide +kernel

/-- `𝕨 Deal 𝕩` gives `𝕨` different numbers below `𝕩`. (With 2⋆29 or more numbers of not more than 64 times as many, `deal_copy_undefined` applies.) -/
theorem deal_distinct (rnd : Nat → Word) (w x : Nat) (junk : Nat → Nat) (hw : w ≤ x) (hx : x < 2^31) (hlim : w < 2^29 ∨ w = x ∨ w ≤ x / 64) :
    ∃ r, dealSome rnd w x junk = some (.ok r) ∧ r.length = w ∧ r.Nodup ∧ ∀ v ∈ r, v < x := dealSome_ok rnd w x junk hw hx hlim

-- by the table, and on all numbers
example : dealSome (stream 7#64) 4 300 (fun _ => 9) = some (.ok [264, 256, 116, 76]) := by decide +kernel
example : dealSome (stream 7#64) 4 8 (fun _ => 9) = some (.ok [7, 6, 4, 2]) := by decide +kernel
-- with words that make the table collide: each step finds the place of the one before
example : dealSome (fun _ => 0xFFFFFFFFFFFFFFFF#64) 4 300 (fun _ => 9) = some (.ok [299, 0, 1, 2]) := by decide +kernel

/-- Numbers that cannot be dealt are refused. -/
theorem deal_refuses (rnd : Nat → Word) (w x : Int) (junk : Nat → Nat) :
    (x < 0 → deal rnd x junk = some .err) ∧ (x < 0 ∨ w < 0 ∨ x < w → dealSome rnd w x junk = some .err) := by
  constructor
  · intro h
    unfold deal
    rw [if_pos (by omega), if_pos h]
  · intro h
    unfold dealSome
    by_cases h1 : x < 0
    · rw [if_pos h1]
    rw [if_neg h1]
    by_cases h2 : w < 0
    · rw [if_pos h2]
    rw [if_neg h2, if_neg (by omega), if_pos (by omega)]

/-- Dealing 2⋆29 of 1+2⋆29 numbers has undefined behaviour, whatever the seed: the number of bytes to copy is computed as an `int` and overflows. -/
theorem deal_copy_undefined (rnd : Nat → Word) (junk : Nat → Nat) : dealSome rnd (2^29) (2^29 + 1) junk = none := by
  unfold dealSome
  rw [if_neg (by decide), if_neg (by decide), if_neg (by decide), if_neg (by decide), if_neg (by decide)]
  dsimp only
  rw [if_pos (by decide)]
  cases ((iota (2^31) (2^29 + 1 : Int).toNat).bind fun s => shuf rnd (2^29 + 1 : Int).toNat (2^29 : Int).toNat 0 s) with
  | none => rfl
  | some s => rw [Option.bind_some, if_neg (by decide)]

/-- `𝕨 Subset 𝕩` gives `𝕨` numbers below `𝕩` in increasing order. -/
theorem subset_increasing (rnd : Nat → Word) (w x : Nat) (junk : Nat → Word) (hw : w ≤ x) (hx : x < 2^31) :
    ∃ r, subset rnd w x junk = some (.ok r) ∧ r.length = w ∧ r.Pairwise (· < ·) ∧ ∀ v ∈ r, v < x := by
  unfold subset
  rw [if_neg (show ¬ (w : Int) < 0 by omega), if_neg (show ¬ (x : Int) < 0 by omega), if_neg (show ¬ (w : Int) > x by omega)]
  by_cases h0 : w = 0
  · rw [if_pos (show (w : Int) = 0 by omega)]
    exact ⟨[], rfl, by simp [h0], List.Pairwise.nil, fun v hv => by simp at hv⟩
  rw [if_neg (show ¬ (w : Int) = 0 by omega)]
  dsimp only
  rw [Int.toNat_natCast, Int.toNat_natCast]
  by_cases h1 : w = x
  · rw [if_pos h1, h1]
    exact ⟨_, rfl, List.length_range, List.pairwise_lt_range, fun v hv => List.mem_range.1 hv⟩
  rw [if_neg h1]
  by_cases h2 : w > x / 8
  · rw [if_pos h2]
    obtain ⟨set, e, hl, hc⟩ := floyd_ok rnd x (if decide (w > x / 2) = true then x - w else w) (x - if decide (w > x / 2) = true then x - w else w) 0
      (List.replicate x false) (by
        by_cases c : w > x / 2
        · rw [if_pos (by simpa using c)]; omega
        · rw [if_neg (by simpa using c)]; omega) List.length_replicate (fun v hv => by
        rw [List.getElem?_replicate] at hv
        by_cases c : v < x
        · rw [if_pos c] at hv; cases hv
        · rw [if_neg c] at hv; cases hv)
    rw [e, Option.bind_some]
    generalize hbs : (if decide (w > x / 2) = true then set.map not else set) = bs
    have hbl : bs.length = x := by
      rw [← hbs]
      by_cases c : w > x / 2
      · rw [if_pos (by simpa using c), List.length_map, hl]
      · rw [if_neg (by simpa using c), hl]
    have hz : (List.replicate x false).count true = 0 := by rw [List.count_replicate]; rfl
    have hcount : bs.count true = w := by
      rw [← hbs]
      rw [hz, Nat.zero_add] at hc
      by_cases c : w > x / 2
      · rw [if_pos (by simpa using c)]
        rw [if_pos (by simpa using c)] at hc
        have h3 : ∀ l : List Bool, (l.map not).count true + l.count true = l.length := by
          intro l
          induction l with
          | nil => rfl
          | cons b l ih => cases b <;> simp [List.count_cons] <;> omega
        have := h3 set
        omega
      · rw [if_neg (by simpa using c)]
        rw [if_neg (by simpa using c)] at hc
        exact hc
    have hw1 := where_positions (fun i => (packBits bs).getD i 0#64) x junk (by omega)
    have hlist : listF (fun i => (packBits bs).getD i 0#64) x = bs := by
      rw [← hbl]; exact packBits_spec bs
    rw [hlist] at hw1
    obtain ⟨r, er, ee⟩ := Option.map_eq_some_iff.1 hw1
    rw [er]
    have hn : natsOf r = positions bs := by
      unfold natsOf
      rw [ee, List.map_map]
      exact List.map_id _
    obtain ⟨p1, p2, p3⟩ := positions_props bs
    exact ⟨natsOf r, rfl, by rw [hn, p1, hcount], by rw [hn]; exact p2, by rw [hn]; intro v hv; have := p3 v hv; omega⟩
  · rw [if_neg h2]
    have hI : SInv x (shiftOf w 64 (x / 4) 0) (x - w) (List.replicate ((x - 1) >>> shiftOf w 64 (x / 4) 0 + 1 + w) x) :=
      ⟨fun p v h hv => by rw [List.getElem?_replicate] at h; split at h <;> simp_all,
       fun p q v u _ h _ hv => by rw [List.getElem?_replicate] at h; split at h <;> simp_all,
       fun p v q h hv => by rw [List.getElem?_replicate] at h; split at h <;> simp_all⟩
    obtain ⟨r, e, hr, hm⟩ := inserts_ok rnd x (shiftOf w 64 (x / 4) 0) _ w (x - w) 0 _ (by omega) List.length_replicate hI (by
      rw [members_none, List.length_nil]
      generalize (x - 1) >>> shiftOf w 64 (x / 4) 0 = a
      omega)
    rw [members_none, List.length_nil, Nat.zero_add] at hm
    rw [e, Option.bind_some]
    have hf : filterNe r w x = some (members x r) := if_pos hm
    rw [hf]
    obtain ⟨p1, p2⟩ := members_sorted x _ r hr
    exact ⟨_, rfl, hm, p1, p2⟩

-- by the table; by the set; by the set of the others
example : subset (stream 7#64) 4 300 (fun _ => 9#64) = some (.ok [73, 115, 254, 262]) := by decide +kernel
example : subset (stream 7#64) 3 8 (fun _ => 9#64) = some (.ok [3, 5, 6]) := by decide +kernel
example : subset (stream 7#64) 6 8 (fun _ => 9#64) = some (.ok [0, 1, 2, 3, 4, 5]) := by decide +kernel

/-- More numbers than there are, or a negative number of them, are refused. -/
theorem subset_refuses (rnd : Nat → Word) (w x : Int) (junk : Nat → Word) (h : x < 0 ∨ w < 0 ∨ x < w) : subset rnd w x junk = some .err := by
  unfold subset
  by_cases h1 : w < 0
  · rw [if_pos h1]
  rw [if_neg h1]
  by_cases h2 : x < 0
  · rw [if_pos h2]
  rw [if_neg h2, if_pos (by omega)]

/-- `𝕨 Range 𝕩` gives as many numbers as asked for, all of them below `𝕩`. The number of bytes of the result must be below 2⋆32 unless the result has floats. -/
theorem range_below (rnd : Nat → Word) (am x : Nat) (h1 : 0 < x) (h2 : x < 2^53) (hfit : (am + 64 ≤ 2^32 ∧ am * 2 ^ (rangeType x).log + 64 ≤ 8 * 2^32) ∨ 2^31 < x) :
    ∃ r, rangeMany rnd am x = some (.ok r) ∧ r.length = am ∧ ∀ v ∈ r, v < x := rangeMany_ok rnd am x h1 h2 hfit

example : rangeMany (stream 7#64) 5 64 = some (.ok [1, 24, 10, 34, 33]) := by decide +kernel
example : rangeMany (stream 7#64) 5 1000 = some (.ok [883, 855, 385, 245, 754]) := by decide +kernel
example : rangeMany (stream 7#64) 5 2 = some (.ok [1, 0, 0, 0, 0]) := by decide +kernel
example : rangeMany (stream 7#64) 2 1000000000000 = some (.ok [883232586524, 855343619823]) := by decide +kernel

/-- A list of 2⋆30 random numbers below 2⋆20 is written outside of its memory, whatever the seed: its size in bytes is computed with 32 bits. -/
theorem range_writes_outside (rnd : Nat → Word) : rangeMany rnd (2^30) (2^20) = none := by
  unfold rangeMany
  rw [if_neg (by decide)]
  dsimp only
  rw [if_neg (by decide), if_neg (by decide), if_neg (by decide)]

/-- `Range 𝕩` is below `𝕩` if `𝕩` is at most 2⋆53. -/
theorem range_one_below (rnd : Nat → Word) (x : Nat) (h1 : 0 < x) (h2 : x ≤ 2^53) : rangeOne rnd x < x := by
  have h := wy2u0k_lt (rnd 0) x h1
  unfold rangeOne
  rw [toF64_small _ (by omega)]
  exact h

example : rangeOne (stream 7#64) 1000 = 883 := by decide +kernel

/-- For larger `𝕩` the result can be `𝕩` itself: the number is rounded to a float. -/
theorem range_one_reaches : rangeOne (fun _ => 0xFFFFFFFFFFFFFFFF#64) (2^60) = 2^60 := by decide +kernel

end Verif.Rand
