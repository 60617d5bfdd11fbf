import Verif.Search.Core
/-!
# Properties: dyadic searches agree with linear search

`WF a` says that the elements of the array can be stored in its element type. The hash function is arbitrary (not 0), as is
what the memory of a new table holds. `same` says that the two arguments are the same array.
-/
namespace Verif.Search
open Verif HTab
attribute [local irreducible] st

/-- **C30**, `w⊐x`: each element of `x` is answered with the index of its first occurrence in `w`, or with the length of `w`,
whichever of the paths (single lookups, boolean, short, table, hash) is taken; no path leaves its table or uses uninitialised
entries. For fewer than 2^31 elements in `w`. -/
theorem index_of_correct (hash : El → Nat) (hh : ∀ k, hash k ≠ 0) (junk : Junk) (same : Bool) (w x : Arr) (hw : WF w) (hx : WF x)
    (hs : same = true → w = x) (hl : w.els.length < 2^31) :
    indexOf_c2 hash junk same w x = some (x.els.map fun e => ((w.els.idxOf e : Nat) : Int)) :=
  indexOf_c2_core hh junk same w x hw hx hs hl

/-- Characters of both widths: the table path. -/
example : indexOf_c2 (fun _ => 1) ⟨(.int 0, 0), (.int 0, ()), fun _ => none⟩ false
    ⟨.c8, [.chr 200, .chr 97, .chr 97, .chr 98, .chr 99, .chr 100, .chr 101]⟩
    ⟨.c16, [.chr 65480, .chr 97, .chr 200, .chr 101, .chr 5, .chr 5, .chr 5, .chr 5, .chr 5, .chr 5, .chr 5, .chr 5, .chr 5, .chr 5, .chr 98]⟩
    = some [7, 1, 0, 6, 7, 7, 7, 7, 7, 7, 7, 7, 7, 7, 3] := by decide +kernel

/-- `w⊐x` for a single value `x` -/
theorem index_of_unit_correct (w : Arr) (hw : WF w) (e : El) : indexOf_unit w e = w.els.idxOf e := indexOfOne_eq hw e

example : indexOf_unit ⟨.i8, [.int 5, .int (-1), .int 7]⟩ (.int (-1)) = 1 ∧
    indexOf_unit ⟨.i8, [.int 5, .int (-1), .int 7]⟩ (.int 255) = 3 := by decide

/-- The limit on the length of `w` is needed: a boolean list of 2^31 zeros answers the absent 1 with a negative number. -/
theorem index_of_long_wrong (hash : El → Nat) (junk : Junk) (n : Nat) (hn : n = 2^31) :
    indexOf_c2 hash junk false ⟨.bit, List.replicate n (.int 0)⟩ ⟨.bit, [.int 1, .int 1]⟩ = some [-2^31, -2^31] := by
  have h0 : ¬ (n = 0 ∨ [El.int 1, El.int 1].length = 0) := by simp; omega
  have hc : checkChrs ⟨.bit, List.replicate n (.int 0)⟩ ⟨.bit, [.int 1, .int 1]⟩ =
      .block 0 0 ⟨.bit, List.replicate n (.int 0)⟩ ⟨.bit, [.int 1, .int 1]⟩ := rfl
  unfold indexOf_c2
  simp only [List.length_replicate]
  rw [if_neg h0, hc]
  simp only [List.length_replicate]
  rw [if_neg (by simp), if_pos trivial]
  have hd : (List.replicate n (El.int 0)).headD (El.int 0) = El.int 0 := by
    cases n with
    | zero => rfl
    | succ n => rfl
  rw [hd]
  have hidx : (List.replicate n (El.int 0)).idxOf (El.int 1) = n := by
    rw [List.idxOf_eq_length]
    · simp
    · simp [List.mem_replicate]
  rw [if_pos rfl, hidx]
  have hst : st 32 (n : Int) = -2^31 := by
    unfold st
    rw [hn]
    decide +kernel
  rw [hst]
  simp [ne]

/-- **C30**, `w∊x`: tells for each element of `w` whether it occurs in `x`. -/
theorem member_of_correct (hash : El → Nat) (hh : ∀ k, hash k ≠ 0) (junk : Junk) (same : Bool) (w x : Arr) (hw : WF w) (hx : WF x)
    (hs : same = true → w = x) :
    memberOf_c2 hash junk same w x = some (w.els.map fun e => if e ∈ x.els then 1 else 0) :=
  memberOf_c2_core hh junk same w x hw hx hs

example : memberOf_c2 (fun _ => 1) ⟨(.int 0, 0), (.int 0, ()), fun _ => none⟩ false
    ⟨.i16, [.int 300, .int 7, .int (-5)]⟩ ⟨.i8, [.int 44, .int 7, .int 1, .int 2, .int 3, .int 4, .int 5, .int 6, .int 7, .int 8, .int 9,
      .int 10, .int 11, .int 12, .int 13, .int 14, .int 15, .int (-5)]⟩ = some [0, 1, 1] := by decide +kernel

/-- `w∊x` for a single value `w` -/
theorem member_of_unit_correct (x : Arr) (hx : WF x) (e : El) : memberOf_unit x e = decide (e ∈ x.els) := by
  unfold memberOf_unit
  rw [indexOfOne_eq hx]
  by_cases c : e ∈ x.els
  · have := List.idxOf_lt_length_iff.2 c
    simp [c]; omega
  · simp [c, List.idxOf_eq_length c]

example : memberOf_unit ⟨.c8, [.chr 255]⟩ (.chr 65535) = false ∧ memberOf_unit ⟨.c8, [.chr 255]⟩ (.chr 255) = true := by decide

/-- **C30**, `w⊒x`: each element of `x` is answered with the first occurrence in `w` that equal elements earlier in `x` have
not used up. For fewer than 2^31 elements in `w`. -/
theorem progressive_index_correct (hash : El → Nat) (hh : ∀ k, hash k ≠ 0) (junk : Junk) (same : Bool) (w x : Arr) (hw : WF w) (hx : WF x)
    (hs : same = true → w = x) (hl : w.els.length < 2^31) :
    count_c2 hash junk same w x = some ((progressive w.els x.els).map fun n : Nat => (n : Int)) :=
  count_c2_core hh junk same w x hw hx hs hl

example : count_c2 (fun _ => 1) ⟨(.int 0, 0), (.int 0, ()), fun _ => none⟩ false
    ⟨.i16, [.int 5, .int 300, .int 5, .int 8]⟩ ⟨.i8, [.int 5, .int 8, .int 5, .int 5, .int 8]⟩ = some [0, 3, 2, 4, 4] := by
  decide +kernel

end Verif.Search
