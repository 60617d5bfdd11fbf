import Verif.Select.Top
import Verif.Rep.Props
/-!
# C25: Select picks the cells that the indices mean and rejects all other indices

`positions n ws` (in `Spec.lean`) are the positions that all indices mean: `i` from the start for `0 ≤ i < n` and `n+i` for `-n ≤ i < 0`; it is `none`
when an index means no position or is not an integer. A result `none` of the model is a read or write outside of memory, and `some .err` an error
for the user. `sq` is the function that squeezes `𝕨` to a smaller type (property C11), `fl` whether `𝕨` is marked as squeezed, `d1` whether its
type says that it holds no arrays, and `list` whether `𝕩` has rank 1. `junk` and `d` are the contents of fresh memory.
-/
namespace Verif.Select
open Verif.Bits Verif.Fold Verif.Slash Verif.Rep

/-- `𝕨⊏𝕩` for `𝕩` with cells of 1, 2, 4 or 8 bytes or of one object. -/
theorem select_elements {α} (sq : Counts → Counts) (hsq : Keeps sq) (fl d1 list : Bool) (w : Counts) (hw : w.Ok) (x : Src α) (xs : List α)
    (hx : (∃ csz, 0 < csz ∧ xs.length * csz < 2^32 ∧ w.len * csz < 2^32 ∧ x = .units csz xs) ∨ x = .objs xs) (hn : xs.length < 2^32) (junk : Nat → Word) (d : Nat → α) :
    selectC2 sq fl d1 list w x xs.length junk d = some (orErr ((positions xs.length w.elems).map fun ps => .elems (at_ ps xs))) := by
  have hw2 : selectWide sq fl d1 list w x xs.length junk d = selectMany sq fl list w x xs.length junk d := by
    rcases hx with ⟨csz, c0, hx1, hx2, rfl⟩ | rfl <;> rfl
  have := selectC2_cases sq fl d1 list w x xs.length junk d id (fun ps => Res.elems (at_ ps xs))
    (fun _ => by rcases hx with ⟨csz, c0, hx1, hx2, rfl⟩ | rfl <;> rfl)
    (fun v hv => by
      rw [map_id_out]
      rw [hv] at hx
      exact selectOne_plain v x xs hx hn junk)
    (fun h0 h2 => by
      rw [map_id_out, hw2]
      exact selectMany_plain sq hsq fl list w hw x xs hx hn h0 junk d)
  rw [map_id_out] at this
  exact this

/-- Three indices of 8 bits, one of them negative, from a list of characters. -/
example : selectC2 id false true true (.ints .i8 [2, -3, 0]) (.units 1 ['a', 'b', 'c']) 3 (fun _ => 7#64) (fun _ => 'x') = some (.ok (.elems ['c', 'a', 'a'])) :=
  (select_elements id keeps_id false true true (.ints .i8 [2, -3, 0]) (show ∀ v ∈ ([2, -3, 0] : List Int), -2^(8 - 1) ≤ v ∧ v ≤ 2^(8 - 1) - 1 by decide) (.units 1 ['a', 'b', 'c']) ['a', 'b', 'c'] (.inl ⟨1, by decide, by decide, by decide, rfl⟩) (by decide) _ _).trans
    (by rfl)

/-- An index that is too small. -/
example : selectC2 id false true true (.ints .i8 [2, -4, 0]) (.units 1 ['a', 'b', 'c']) 3 (fun _ => 7#64) (fun _ => 'x') = some .err :=
  (select_elements id keeps_id false true true (.ints .i8 [2, -4, 0]) (show ∀ v ∈ ([2, -4, 0] : List Int), -2^(8 - 1) ≤ v ∧ v ≤ 2^(8 - 1) - 1 by decide) (.units 1 ['a', 'b', 'c']) ['a', 'b', 'c'] (.inl ⟨1, by decide, by decide, by decide, rfl⟩) (by decide) _ _).trans
    (by rfl)

/-- `𝕨⊏𝕩` for `𝕩` with cells of another number of bytes, or of several objects. `cs` are the cells, as bytes or objects. The result has less than
2^32 elements, and with more than 2^32-66 booleans it is an error. -/
theorem select_cells {α} (sq : Counts → Counts) (hsq : Keeps sq) (fl d1 list : Bool) (w : Counts) (hw : w.Ok) (x : Src α) (cs : List (List α)) (csz bits : Nat) (h0 : 0 < csz)
    (hx : (8 ∣ csz * bits ∧ csz * bits < 2^32 ∧ x = .cells bits csz cs.flatten ∧ ∀ c ∈ cs, c.length = csz * bits / 8) ∨
      (x = .objCells csz cs.flatten ∧ (∀ c ∈ cs, c.length = csz) ∧ bits = 64))
    (hn : cs.length < 2^32) (hxc : cs.length * csz < 2^32) (hxb : bits = 1 → cs.length * csz ≤ bitMax) (hwl : w.len * csz < 2^32) (junk : Nat → Word) (d : Nat → α) :
    selectC2 sq fl d1 list w x cs.length junk d = some (orErr (if bits = 1 ∧ w.len * csz > bitMax then none else
      (positions cs.length w.elems).map fun ps => .elems (at_ ps cs).flatten)) := by
  obtain ⟨width, hwide, hcs⟩ : ∃ width, Wide x cs w.len csz width (decide (bits = 1 ∧ w.len * csz > bitMax)) ∧ ∀ c ∈ cs, c.length = width := by
    rcases hx with ⟨h1, h2, h3, h4⟩ | ⟨h3, h4, h5⟩
    · exact ⟨csz * bits / 8, Or.inl ⟨bits, Nat.div_mul_cancel h1, h2, h3, rfl⟩, h4⟩
    · exact ⟨csz, Or.inr ⟨rfl, h3, decide_eq_false (by omega)⟩, h4⟩
  have hw2 : selectWide sq fl d1 list w x cs.length junk d = selectMany sq fl list w x cs.length junk d := by
    rcases hx with ⟨h1, h2, h3, h4⟩ | ⟨h3, h4⟩ <;> subst h3 <;> rfl
  by_cases hbig : bits = 1 ∧ w.len * csz > bitMax
  · rw [if_pos hbig]
    have hel := elems_length w
    have hcl : cs.length = 0 ∨ w.len ≥ 2 := by
      rcases Nat.eq_zero_or_pos cs.length with h | h
      · exact Or.inl h
      · right
        have h3 := hxb hbig.1
        have h4 : csz ≤ cs.length * csz := Nat.le_mul_of_pos_left _ h
        have h5 := hbig.2
        rcases Nat.lt_or_ge w.len 2 with h6 | h6
        · have : w.len * csz ≤ 1 * csz := Nat.mul_le_mul_right _ (by omega)
          omega
        · exact h6
    unfold selectC2
    rcases he : w.elems with _ | ⟨v, _ | ⟨v2, vs⟩⟩
    · rw [he] at hel
      have h5 := hbig.2
      rw [← hel, List.length_nil, Nat.zero_mul] at h5
      omega
    · rw [he, List.length_singleton] at hel
      have h7 : cs.length = 0 := by omega
      dsimp only
      rw [selectOne_wide v x cs hwide hcs hn h0 hxc junk, h7, position_one]
      rcases v with _ | v
      · rfl
      · have : position 0 v = none := by
          unfold position
          rw [if_neg (by omega), if_neg (by omega)]
        show some (orErr (((position 0 v).map _).map _)) = _
        rw [this]
        rfl
    · dsimp only
      by_cases h8 : cs.length = 0
      · rw [if_pos h8]
        rfl
      · rw [if_neg h8, hw2, selectMany_wide sq hsq fl list w hw x cs hwide hcs hn h0 hxc hwl junk d, decide_eq_true hbig, if_pos rfl]
        rfl
  · rw [if_neg hbig]
    rw [decide_eq_false hbig] at hwide
    have := selectC2_cases sq fl d1 list w x cs.length junk d id (fun ps => Res.elems (at_ ps cs).flatten)
      (fun _ => by rcases hx with ⟨h1, h2, h3, h4⟩ | ⟨h3, h4⟩ <;> subst h3 <;> rfl)
      (fun v hv => by
        rw [map_id_out]
        exact selectOne_wide v x cs hwide hcs hn h0 hxc junk)
      (fun h0' h2 => by
        rw [map_id_out, hw2, selectMany_wide sq hsq fl list w hw x cs hwide hcs hn h0 hxc hwl junk d, if_neg (by simp)])
    rw [map_id_out] at this
    exact this

/-- Cells of three bytes. -/
example : selectC2 id false true false (.ints .i16 [-1, 0, -1]) (.cells 8 3 ["abc".toList, "def".toList].flatten) 2 (fun _ => 7#64) (fun _ => 'x') =
    some (.ok (.elems "defabcdef".toList)) :=
  (select_cells id keeps_id false true false (.ints .i16 [-1, 0, -1]) (show ∀ v ∈ ([-1, 0, -1] : List Int), -2^(16 - 1) ≤ v ∧ v ≤ 2^(16 - 1) - 1 by decide) (.cells 8 3 ["abc".toList, "def".toList].flatten) ["abc".toList, "def".toList] 3 8 (by decide)
    (.inl ⟨by decide, by decide, rfl, by decide⟩) (by decide) (by decide) (by decide) (by decide) _ _).trans (by rfl)

/-- `𝕨⊏𝕩` for a boolean list `𝕩`. -/
theorem select_bits {α} (sq : Counts → Counts) (hsq : Keeps sq) (fl d1 list : Bool) (w : Counts) (hw : w.Ok) (hwl : w.len ≤ bitMax) (x : Nat → Word) (xn : Nat) (hn : xn < 2^32)
    (junk : Nat → Word) (d : Nat → α) :
    (selectC2 sq fl d1 list w (.bits x) xn junk d).map (Out.map (Res.bitsFrom [] w.len)) = some (orErr ((positions xn w.elems).map fun ps => at_ ps (listF x xn))) := by
  have hbm : bitMax = 4294967230 := rfl
  refine selectC2_cases sq fl d1 list w _ xn junk d _ (fun ps => at_ ps (listF x xn)) (fun h => by rw [h]; rfl) (fun v hv => by rw [hv]; exact selectOne_bits v x xn hn junk) ?_
  intro h0 h2
  unfold selectWide
  dsimp only
  by_cases hc : w.len ≥ 256 ∧ d1 = true ∧ w.len / 4 ≥ xn
  · rw [if_pos hc]
    have hlen : (listF x xn).length = xn := length_listF x xn
    have := selectMany_plain sq hsq fl list w hw (.units 1 (listF x xn)) (listF x xn) (.inl ⟨1, by decide, by omega, by omega, rfl⟩) (by omega) (by omega) junk (fun _ => false)
    rw [hlen] at this
    rw [this]
    rcases hp : positions xn w.elems with _ | ps
    · rfl
    · have hl : (at_ ps (listF x xn)).length = w.len := by
        rw [at_length (fun p h => by rw [hlen]; exact positions_lt hp p h), positions_length hp, elems_length]
      show (toBits (.elems (at_ ps (listF x xn)))).map _ = _
      unfold toBits
      dsimp only
      rw [if_neg (by omega)]
      show some (Out.ok (listL (packBits (at_ ps (listF x xn))) w.len)) = _
      rw [← hl, packBits_spec]
      rfl
  · rw [if_neg hc]
    exact selectMany_bits sq hsq fl list w hw hwl x xn hn h0 junk d

/-- The last and the first two bits of 70. -/
example : (selectC2 (α := Nat) id false true true (.any [some (-1), some 0, some 1]) (.bits fun i => if i = 1 then 32#64 else 1#64) 70 (fun _ => 7#64) (fun _ => 0)).map (Out.map (Res.bitsFrom [] 3)) =
    some (.ok [true, true, false]) :=
  (select_bits id keeps_id false true true (.any [some (-1), some 0, some 1]) trivial (by decide) _ 70 (by decide) _ _).trans (by rfl)

/-- `𝕨⊏𝕩` for `𝕩` with cells of `csz` booleans that are not whole bytes, when they are not widened first. -/
theorem select_bit_cells_partial {α} (sq : Counts → Counts) (hsq : Keeps sq) (fl d1 list : Bool) (w : Counts) (hw : w.Ok) (csz : Nat) (h0 : 0 < csz) (hwl : w.len * csz ≤ bitMax)
    (x : Nat → Word) (xn : Nat) (hn : xn < 2^32) (hx : xn * csz < 2^32) (_hwiden : widens w.len csz xn d1 = false) (junk : Nat → Word) (d : Nat → α) :
    (selectC2 sq fl d1 list w (.bitCells csz x) xn junk d).map (Out.map (Res.bitsFrom [] (w.len * csz))) =
      some (orErr ((positions xn w.elems).map fun ps => (at_ ps (bitCells x csz xn)).flatten)) := by
  refine selectC2_cases sq fl d1 list w _ xn junk d _ (fun ps => (at_ ps (bitCells x csz xn)).flatten) (fun h => by rw [h, Nat.zero_mul]; rfl)
    (fun v hv => by rw [hv, Nat.one_mul]; exact selectOne_bitCells v csz h0 x xn hn hx junk) ?_
  intro _ h2
  exact selectMany_bitCells sq hsq fl list w hw csz hwl h0 x xn hn hx junk d

/-- Two cells of three bits. -/
example : (selectC2 (α := Nat) id false true false (.ints .i32 [-1, 0]) (.bitCells 3 fun _ => 0b101001#64) 2 (fun _ => 7#64) (fun _ => 0)).map (Out.map (Res.bitsFrom [] 6)) =
    some (.ok [true, false, true, true, false, false]) :=
  (select_bit_cells_partial id keeps_id false true false (.ints .i32 [-1, 0]) (show ∀ v ∈ ([-1, 0] : List Int), -2^(32 - 1) ≤ v ∧ v ≤ 2^(32 - 1) - 1 by decide) 3 (by decide) (by decide) _ 2 (by decide) (by decide) (by decide) _ _).trans (by rfl)

/-! ## What goes wrong -/

/-- Zero-size cells: any two numbers are accepted as indices, so that `5‿6⊏3‿0⥊0` is no error. -/
theorem select_empty_cells_unchecked : selectC2 id false true false (.ints .i8 [5, 6]) (.cells 8 0 ([[], [], []] : List (List Char)).flatten) 3 (fun _ => 7#64) (fun _ => 'x') = some (.ok (.elems [])) ∧
    positions 3 [some 5, some 6] = none := ⟨rfl, by decide⟩

/-- Cells of 2^29 bytes: nothing is copied, and the result is what the memory held before. -/
theorem select_large_cells_uninitialised (a b : List Char) (ha : a.length = 2^29) (hb : b.length = 2^29) (d : Nat → Char) :
    selectC2 id false true false (.ints .i8 [0, 1]) (.cells 64 (2^26) ([a, b] : List (List Char)).flatten) 2 (fun _ => 7#64) d = some (.ok (.elems (fresh d (2^30)))) := by
  have hpart : ∀ m : List Char, ∀ p q : Nat, p = 0 → q = 0 → cfCall [a, b].flatten p q (cfParts 0) m = some m := by
    rintro m p q rfl rfl
    unfold cfParts
    rw [if_pos (by decide)]
    unfold cfCall
    unfold memCpy
    rw [if_pos ⟨by simp, by simp⟩]
    rw [Option.bind_some]
    unfold cfCall
    simp
  unfold selectC2 Counts.elems
  dsimp only [List.map_cons, List.map_nil]
  rw [if_neg (by decide)]
  unfold selectWide selectMany
  dsimp only
  unfold selectBy
  dsimp only
  unfold selectInts
  dsimp only
  unfold generic
  dsimp only
  rw [if_neg (by decide), if_neg (by decide), if_pos rfl]
  have e1 : 2^26 * 64 % 2^32 / 8 = 0 := by decide
  have e2 : (List.map some ([0, 1] : List Int)).length * 2^26 % 2^32 * 64 / 8 = 2^30 := by decide
  rw [e1, e2]
  generalize fresh d (2^30) = m0
  rw [List.map_cons, List.map_cons, List.map_nil]
  unfold cellLoop
  rw [show (o2i64 (some 0)).bind (wrap · 2) = some 0 by decide]
  dsimp only
  rw [hpart _ _ _ (Nat.mul_zero _) (Nat.mul_zero _), Option.bind_some]
  unfold cellLoop
  rw [show (o2i64 (some 1)).bind (wrap · 2) = some 1 by decide]
  dsimp only
  rw [hpart _ _ _ (Nat.mul_zero _) (Nat.mul_zero _), Option.bind_some]
  rfl

/-- With 2^31 indices and cells of two bytes the size of the result wraps to 0, and the first cell is written outside of it. -/
theorem select_writes_outside (t : Sum.Ty) (ws : List Int) (a b : Char) (d : Nat → Char) (hl : ws.length = 2^31) (ht : t = .i32) (hf : ∀ v ∈ ws, v = 0) :
    selectMany id false false (.ints t ws) (.units 2 [a, b]) 2 (fun _ => 7#64) d = none := by
  subst ht
  unfold selectMany selectBy selectInts
  dsimp only
  rw [hl, show 2^31 * 2 % 2^32 = 0 by decide]
  rcases ws with _ | ⟨v, ws⟩
  · cases hl
  · obtain rfl := hf v List.mem_cons_self
    unfold cpusel units32
    rw [List.map_cons]
    unfold cellLoop
    rw [show (o2i64 (some 0)).bind (wrap · 2) = some 0 by decide]
    rfl

end Verif.Select
