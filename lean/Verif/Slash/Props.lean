import Verif.Slash.CompressMain
/-!
# Indices of a boolean list and Replicate by a boolean list

`none` would be a read or write outside of memory. `junk` and `d` are what fresh memory contains. The arguments are the words of memory of
the boolean list, whose bits from the length on are arbitrary. What the results mean is in `Verif.Slash.Spec`.
-/
namespace Verif.Slash
open Verif.Bits Verif.Fold

/-! ### concrete arguments -/
def exW : Nat → Word := fun i => if i = 0 then 0xFFF0000000000F01#64 else 0xFFFFFFFFFFFFFF02#64
def exX : Nat → Word := fun i => if i = 0 then 0x1230000000000A01#64 else 0x1#64

/-- `/𝕩` for a boolean list lists the positions of its ones in increasing order. -/
theorem where_positions (x : Nat → Word) (n : Nat) (junk : Nat → Word) (hn : n < 2^32) :
    (where_ x n (bit_sum x n) junk).map Ints.elems = some ((positions (listF x n)).map Int.ofNat) := by
  rw [where_spec x n _ junk hn (bit_sum_eq x n), positions_eq]

example : (where_ exW 67 (bit_sum exW 67) fun _ => 5#64).map Ints.elems =
    some [0, 8, 9, 10, 11, 52, 53, 54, 55, 56, 57, 58, 59, 60, 61, 62, 63, 65] := by
  rw [where_positions exW 67 _ (by decide)]
  decide +kernel

/-- The elements of a result, if the argument has elements `xs`. -/
def Res.from {α} (xs : List α) : Res α → List α
  | .same => xs
  | .elems ys => ys
  | .bits _ => []

/-- `𝕨/𝕩` for a boolean list `𝕨` keeps exactly the elements of the list `𝕩` where `𝕨` is one, in order. `𝕩` holds elements of 1, 2, 4
or 8 bytes, or objects. -/
theorem compress_keeps {α} (w : Nat → Word) (xs : List α) (junk : Nat → Word) (d : Nat → α) (x : Data α)
    (hx : (∃ small, x = .typed small xs) ∨ ∃ ptr, x = .objs ptr xs) :
    (compress w x xs.length junk d).map (Res.from xs) = some (keep (listF w xs.length) xs) := by
  rw [keep_eq]
  rcases compress_start w x xs.length junk d with ⟨h, e⟩ | ⟨h, e⟩ | ⟨y, n', h0, h1, h2, h3, h4, e⟩
  · rw [e, h]
    rcases hx with ⟨s, rfl⟩ | ⟨s, rfl⟩ <;> rfl
  · rw [e, h, pick_range]
    rfl
  · rw [e, compressBy_elems xs rfl h0 h1 h2 h3 junk d x hx, h4]
    rfl

example : (compress exW (.typed true (List.range 67)) 67 (fun _ => 5#64) fun _ => 0).map (Res.from (List.range 67)) =
    some [0, 8, 9, 10, 11, 52, 53, 54, 55, 56, 57, 58, 59, 60, 61, 62, 63, 65] := by
  have := compress_keeps exW (List.range 67) (fun _ => 5#64) (fun _ => 0) (.typed true (List.range 67)) (Or.inl ⟨_, rfl⟩)
  rw [List.length_range] at this
  rw [this]
  decide +kernel

/-- `𝕨/𝕩` for a boolean list `𝕨` and an array `𝕩` of higher rank keeps exactly the cells of `𝕩` where `𝕨` is one, in order. -/
theorem compress_keeps_cells {α} (w : Nat → Word) (width : Nat) (cs : List (List α)) (hcs : ∀ c ∈ cs, c.length = width) (junk : Nat → Word) (d : Nat → α)
    (x : Data α) (hx : x = .cells width cs.flatten ∨ x = .objCells width cs.flatten) :
    (compress w x cs.length junk d).map (Res.from cs.flatten) = some (keep (listF w cs.length) cs).flatten := by
  rw [keep_eq]
  rcases compress_start w x cs.length junk d with ⟨h, e⟩ | ⟨h, e⟩ | ⟨y, n', h0, h1, h2, h3, h4, e⟩
  · rw [e, h]
    rcases hx with rfl | rfl <;> rfl
  · rw [e, h, pick_range]
    rfl
  · rw [e, compressBy_cells cs hcs h0 h1 h3 junk d x hx, h4]
    rfl

example : ∀ c ∈ [[1, 2, 3], [4, 5, 6], [7, 8, 9]], c.length = 3 := by decide
example : (keep (listF (fun _ => 0b101#64) 3) [[1, 2, 3], [4, 5, 6], [7, 8, 9]]).flatten = [1, 2, 3, 7, 8, 9] := by decide

/-- The booleans of a result of `len` elements, if the argument has elements `bs`. -/
def Res.bitsFrom {α} (bs : List Bool) (len : Nat) : Res α → List Bool
  | .same => bs
  | .elems _ => []
  | .bits ws => listL ws len

/-- `𝕨/𝕩` for boolean lists. -/
theorem compress_keeps_bits {α} (w x : Nat → Word) (n : Nat) (junk : Nat → Word) (d : Nat → α) :
    (compress w (.bits x) n junk d).map (Res.bitsFrom (listF x n) (bit_sum w n)) = some (keep (listF w n) (listF x n)) := by
  have hk := keep_eq (listF x n) (bitF w)
  rw [length_firstN] at hk
  rw [hk, bit_sum_eq]
  rcases compress_start w (.bits x) n junk d with ⟨h, e⟩ | ⟨h, e⟩ | ⟨y, n', h0, h1, h2, h3, h4, e⟩
  · rw [e, h, ← P_length0, h]
    rfl
  · rw [e, h]
    have := pick_range (listF x n)
    rw [length_firstN] at this
    rw [this]
    rfl
  · obtain ⟨m, e1, e2⟩ := compressBits_spec y x n' junk h3
    rw [e]
    rw [compressBy]
    rw [e1]
    show some (listL m (cnt (bitF w) n)) = _
    rw [← P_length0, ← h4, P_length0, e2, pick_firstN _ _ _ (fun p hp => by have := P_mem hp; omega)]

example : (compress (α := Nat) exW (.bits exX) 67 (fun _ => 5#64) fun _ => 0).map (Res.bitsFrom (listF exX 67) (bit_sum exW 67)) =
    some (keep (listF exW 67) (listF exX 67)) ∧
    keep (listF exW 67) (listF exX 67) = [true, false, true, false, true, true, true, false, false, false, true, false, false, true, false, false, false, false] := by
  refine ⟨compress_keeps_bits exW exX 67 _ _, ?_⟩
  decide +kernel

/-- `𝕨/𝕩` for a boolean list `𝕨` and a boolean array `𝕩` whose cells have `width` elements. -/
theorem compress_keeps_bit_cells {α} (w x : Nat → Word) (width n : Nat) (junk : Nat → Word) (d : Nat → α) :
    (compress w (.bitCells width x) n junk d).map (Res.bitsFrom (bitCells x width n).flatten (bit_sum w n * width)) =
      some (keep (listF w n) (bitCells x width n)).flatten := by
  have hlen : (bitCells x width n).length = n := length_firstN _ _
  have hk := keep_eq (bitCells x width n) (bitF w)
  rw [hlen] at hk
  rw [hk, bit_sum_eq]
  rcases compress_start w (.bitCells width x) n junk d with ⟨h, e⟩ | ⟨h, e⟩ | ⟨y, n', h0, h1, h2, h3, h4, e⟩
  · rw [e, h, ← P_length0, h]
    show some (listL [] (0 * width)) = _
    rw [Nat.zero_mul]
    rfl
  · rw [e, h]
    have := pick_range (bitCells x width n)
    rw [hlen] at this
    rw [this]
    rfl
  · rw [e]
    have hlt : ∀ p ∈ P (bitF y) 0 n', p < n := fun p hp => by have := P_mem hp; omega
    have hc : cnt (bitF w) n = cnt (bitF y) n' := by rw [← P_length0, ← h4, P_length0]
    rw [hc, ← h4]
    rw [compressBy]
    rcases Nat.eq_zero_or_pos width with hw | hw
    · subst hw
      rw [if_pos rfl, ← pickCells_bits _ _ _ _ hlt]
      unfold pickCells
      show some (listL [] (cnt (bitF y) n' * 0)) = some ((P (bitF y) 0 n').flatMap fun _ => [])
      rw [Nat.mul_zero]
      simp [firstN]
    · rw [if_neg (by omega)]
      obtain ⟨m, e1, e2⟩ := compressGroup_bits y x (fresh junk ((cnt (bitF y) n' * width + 63) / 64)) width n' hw h0 h3 (length_fresh _ _)
      rw [e1, ← pickCells_bits _ _ _ _ hlt, ← e2]
      rfl

example : (keep (listF (fun _ => 0b101#64) 3) (bitCells (fun _ => 0b001110101#64) 3 3)).flatten = [true, false, true, true, false, false] := by decide

end Verif.Slash
