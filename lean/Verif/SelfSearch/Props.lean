import Verif.SelfSearch.Core
/-!
# Properties: the self-searches agree with linear search

`WF x` (`Core.lean`) says that the argument is one the program can have. The hash function is arbitrary (not 0), as are the
contents of new memory. Arguments of 32-bit cells are limited to 715827882 cells: see `mark_firsts_overflows`.
-/
namespace Verif.SelfSearch
open Verif HTab

/-- **C31**, `∊x`: the cells that do not appear earlier are marked, whichever method is taken. -/
theorem mark_firsts_correct (hash : Nat → Nat) (hh : ∀ k, hash k ≠ 0) (junk : Junk) (x : Cells) (hx : WF x)
    (hl : x.lw = 5 → x.xs.length ≤ 715827882) : memberOf_c1 hash junk x = some (marks x.xs) :=
  memberOf_core hash hh junk x hx hl

/-- An argument of 32-bit cells that differ in all bytes. -/
def sample : Cells := ⟨5, false, true, false, true, false, false,
  [70000, 5, 3000000000, 70000, 5, 3000000000, 65541, 5, 16777221, 4294967295, 16777221, 9, 9, 8, 7, 6, 5, 4, 3, 2, 1, 0]⟩

theorem sample_wf : WF sample :=
  ⟨fun _ => by decide, (fun h => absurd h (by decide)), ⟨fun n => (n : Int), fun _ _ _ _ h => Int.ofNat.inj h,
    fun h => absurd h (by decide), fun h => absurd h (by decide)⟩⟩

def sampleJunk : Junk := ⟨(0, 7), (0, ()), fun _ => none, 99, fun _ => 5⟩

example : memberOf_c1 (fun _ => 1) sampleJunk sample = some [true, true, true, false, false, false, true, false, true, true, false,
    true, false, true, true, true, false, true, true, true, true, true] := by
  rw [mark_firsts_correct _ (by simp) _ _ sample_wf (fun _ => by decide)]; decide +kernel

/-- **C31**, `⊒x`: each cell is answered with the number of equal cells before it, for up to 2^31 cells. -/
theorem occurrence_count_correct (hash : Nat → Nat) (hh : ∀ k, hash k ≠ 0) (junk : Junk) (x : Cells) (hx : WF x)
    (hl : x.xs.length ≤ 2^31) (hl5 : x.lw = 5 → x.xs.length ≤ 715827882) :
    count_c1 hash junk x = some (some ((occs x.xs).map fun n : Nat => (n : Int))) :=
  count_core hash hh junk x hx hl hl5

example : count_c1 (fun _ => 1) sampleJunk sample = some (some [0, 0, 0, 1, 1, 1, 0, 2, 0, 0, 1, 0, 1, 0, 0, 0, 3, 0, 0, 0, 0, 0]) := by
  rw [occurrence_count_correct _ (by simp) _ _ sample_wf (by decide) (fun _ => by decide)]; decide +kernel

/-- More cells are an error. -/
theorem occurrence_count_limit (hash : Nat → Nat) (junk : Junk) (x : Cells) (hl : x.xs.length > 2^31) :
    count_c1 hash junk x = some none ∧ indexOf_c1 hash junk x = some none := by
  have h1 : ¬ x.xs.length ≤ 1 := by omega
  have h2 : x.xs.length > 2147483648 := hl
  unfold count_c1 indexOf_c1
  simp only []
  rw [if_neg h1, if_pos h2, if_neg h1, if_pos h2]
  exact ⟨rfl, rfl⟩

example : ∃ x : Cells, x.xs.length > 2^31 := ⟨⟨3, false, true, false, true, false, false, List.replicate (2^31+1) 0⟩, by
  show (List.replicate (2^31+1) 0).length > _
  rw [List.length_replicate]; omega⟩

/-- **C31**, `⊐x`: each cell is answered with the position of its value among the distinct values in order of appearance, for
fewer than 2^31 cells. -/
theorem classify_correct (hash : Nat → Nat) (hh : ∀ k, hash k ≠ 0) (junk : Junk) (x : Cells) (hx : WF x) (hl : x.xs.length < 2^31) :
    indexOf_c1 hash junk x = some (some ((classes x.xs).map fun n : Nat => (n : Int))) :=
  indexOf_core hash hh junk x hx hl

example : indexOf_c1 (fun _ => 1) sampleJunk sample =
    some (some [0, 1, 2, 0, 1, 2, 3, 1, 4, 5, 4, 6, 6, 7, 8, 9, 1, 10, 11, 12, 13, 14]) := by
  rw [classify_correct _ (by simp) _ _ sample_wf (by decide)]; decide +kernel

/-- The length 2^31, which the program allows, gives wrong classes: the table is filled with the length stored in 32 bits, which
is negative and never recognised as "new". All cells get class 0 although there are two values. -/
theorem classify_limit_wrong (hash : Nat → Nat) (junk : Junk) (k : Nat) (hk : k + 2 = 2^31) :
    WF ⟨3, false, true, false, true, false, false, 1 :: 0 :: List.replicate k 0⟩ ∧
    indexOf_c1 hash junk ⟨3, false, true, false, true, false, false, 1 :: 0 :: List.replicate k 0⟩ = some (some (List.replicate (k+2) 0)) ∧
    classes (1 :: 0 :: List.replicate k 0) ≠ List.replicate (k+2) 0 := by
  have hk : k + 2 = 2147483648 := hk
  have hmem : ∀ v ∈ 1 :: 0 :: List.replicate k 0, v < 2 := by
    intro v hv
    rcases List.mem_cons.1 hv with e | hv
    · omega
    · rcases List.mem_cons.1 hv with e | hv
      · omega
      · have := (List.mem_replicate.1 hv).2; omega
  refine ⟨⟨fun _ v hv => ?_, (fun h => nomatch (show false = true from h)), ⟨fun n => (n : Int), fun _ _ _ _ h => Int.ofNat.inj h,
    (fun h => nomatch (show false = true from h)), (fun h => nomatch (show false = true from h))⟩⟩, ?_, ?_⟩
  · have := hmem v hv
    show v < 256
    omega
  · have hlen : (1 :: 0 :: List.replicate k 0 : List Nat).length = k + 2 := by simp
    have hb : ((k + 2 : Nat) : Int).bmod (2^32) = -2147483648 := by
      rw [hk, Int.bmod_def]
      simp only [Nat.reducePow]
      split <;> omega
    unfold indexOf_c1
    simp only []
    generalize hxs : (1 :: 0 :: List.replicate k 0 : List Nat) = xs at *
    rw [hlen, if_neg (by omega), if_neg (by omega), if_neg (by decide), if_neg (by decide),
      if_neg (by simp [useSorted]), if_pos trivial, if_neg (by omega)]
    unfold lookupClass
    simp only []
    rw [hlen, dotab_never (k+2) _ _ (-2147483648) (by omega) 0 xs]
    · rw [hlen, Option.map_some, Option.map_some]
      unfold reduceBelow
      rw [if_pos (show (0 : Int).toNat ≤ 2 by decide), List.map_replicate]
      rfl
    · intro v hv
      have hv := hmem v hv
      have h1 : v % 2^8 = v := Nat.mod_eq_of_lt (by omega)
      rw [h1, if_pos (by omega)]
      unfold tabInit
      rw [if_neg (by simp), Int.toNat_natCast, if_pos (by omega), Option.map_some, hb]
  · intro h
    have h1 : (classes (1 :: 0 :: List.replicate k 0))[1]? = some 1 := by
      simp [classes, firsts, List.idxOf_cons]
    rw [h] at h1
    rw [List.getElem?_replicate, if_pos (by omega)] at h1
    cases h1

/-- **C31**, `⍷x`: the distinct cells in order of first appearance. -/
theorem deduplicate_correct (hash : Nat → Nat) (hh : ∀ k, hash k ≠ 0) (junk : Junk) (x : Cells) (hx : WF x)
    (hl : x.lw = 5 → x.xs.length ≤ 715827882) : find_c1 hash junk x = some (firsts x.xs) :=
  find_core hash hh junk x hx hl

example : find_c1 (fun _ => 1) sampleJunk sample =
    some [70000, 5, 3000000000, 65541, 16777221, 4294967295, 9, 8, 7, 6, 4, 3, 2, 1, 0] := by
  rw [deduplicate_correct _ (by simp) _ _ sample_wf (fun _ => by decide)]; decide +kernel

/-! ## The memory of the radix method -/

/-- `∊x`, 32-bit cells: all buffers are inside the memory requested, and no buffer is overwritten while it is needed. `k0` is apart
from all others; `v1` and `k1` begin at the same place, where the entry `i` of `v1` is read before byte `i` is written, and later
entries are after that byte; likewise `v2` and `r2`; `v2` ends before `k1`, and `k1` before `tab` and `r1`. -/
theorem mark_layout (n : Nat) (h : n ≤ 715827882) :
    2052 + n ≤ markV2 n ∧ markV2 n % 4 = 0 ∧ markK1 n % 4 = 0 ∧
    markV2 n + 4*(n+1) ≤ markK1 n ∧ markK1 n + n ≤ markR1 n ∧
    markK1 n + 4*n ≤ markSize n ∧ markR1 n + 65536 ≤ markSize n ∧ markR1 n + n ≤ markSize n ∧
    (∀ i j, i < j → markK1 n + i < markK1 n + 4*j ∧ markV2 n + i < markV2 n + 4*j) := by
  have h1 := markFits_ok h
  unfold markFits at h1
  simp only [Bool.and_eq_true, decide_eq_true_eq] at h1
  refine ⟨(up4_le _).1, by unfold markV2 up4; omega, by unfold markK1 markV2 up4; omega, Nat.le_refl _, Nat.le_refl _,
    h1.1.1, h1.1.2, h1.2, fun i j hij => ⟨by omega, by omega⟩⟩

/-- `⊒x`, 32-bit cells: `k0`, `k1`, `v2` and `v1` are apart and inside the memory requested; so is the table, which is at `v1`. -/
theorem count_layout (n : Nat) (h : n ≤ 715827882) :
    2052 + n ≤ countK1 n ∧ countK1 n + n ≤ countV2 n ∧ countV2 n % 4 = 0 ∧ countV1 n % 4 = 0 ∧
    countV2 n + 4*(n+1) ≤ countV1 n ∧ countV1 n + 4*n ≤ countSize n ∧ countV1 n + 4*65536 ≤ countSize n := by
  have h1 := countFits_ok h
  unfold countFits at h1
  simp only [Bool.and_eq_true, decide_eq_true_eq] at h1
  refine ⟨Nat.le_refl _, (up4_le _).1, by unfold countV2 up4; omega, by unfold countV1 countV2 up4; omega, Nat.le_refl _, h1.1, h1.2⟩

example : markSize 100 = 68196 ∧ markR1 100 + 65536 = 68192 ∧ countSize 100 = 264804 := by decide

/-- For more 32-bit cells than in the theorems above, the size of the memory wraps around 2^32. With 2^30 cells the
buffers of `∊x` and `⊒x` end after the memory requested, even when it is rounded up to a power of two. -/
theorem mark_firsts_overflows (n : Nat) (hn : n = 2^30) :
    markSize n ≤ 2^33 ∧ 2^33 < markK1 n + 4*n ∧ countSize n ≤ 2^32 ∧ 2^32 < countV1 n + 4*n := by
  subst hn
  decide +kernel

/-- The limit is exact. -/
theorem mark_fits_limit : markFits 715827882 = true ∧ markFits 715827883 = false ∧ countFits 715827882 = true ∧
    countFits 715827883 = false := by decide +kernel

end Verif.SelfSearch
