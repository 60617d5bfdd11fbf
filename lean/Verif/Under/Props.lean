import Verif.Under.Main
import Verif.Select.Props
/-!
# C26: Under Select replaces the selected cells and keeps all others

`F⌾(ws⊸⊏) x`, where `rep` holds the elements of the result of `F`, one cell after the other. `Expected` (in `Spec.lean`) says that the result is an
error if an index means no position or if two different cells are put at the same position, and that otherwise the selected positions hold the
new cells and all others the old ones. `sel` is the result of `ws⊏x`, which by property C25 is an error exactly for bad indices.
`junk` is the contents of fresh memory, `const` whether `F` is an array, and `fIdx` whether the indices are doubles. A result `none` of the model
would be a read or write outside of memory, or the end of the program.
-/
namespace Verif.Under
open Verif.Bits Verif.Fold Verif.Slash Verif.Rep Verif.Select

/-- One element per cell. -/
theorem under_select_elements {α} (compat : α → α → Bool) (hc : Equiv compat) (const fIdx : Bool) (ws : List (Option Int)) (xs rep : List α) (hn : xs.length < 2^32)
    (hrep : rep.length = ws.length) (sel : Option (Out (Res α))) (hsel : sel ≠ none) (hsel2 : sel = some .err ↔ positions xs.length ws = none) (junk : Nat → Bool) :
    Expected (lift compat) 1 (positions xs.length ws) (rep[·]?) (xs[·]?) (xs.length * 1) (fun (r : List α) k => r[k]?) Res.elems (fun r => r.length = xs.length)
      (ucw compat const fIdx ws xs.length 1 sel (.elems xs rep) junk) :=
  ucw_spec hc.lift const fIdx ws xs.length 1 hn (by decide) sel hsel hsel2 _ junk (acts_elems compat xs.length ws.length xs.length rep rfl hrep) xs rfl Res.elems (fun _ => rfl)

/-- The second of three characters, given twice. -/
example : ∃ r, ucw (fun a b : Char => a == b) false false [some 1, some (-2)] 3 1 (some (.ok (.elems ['b', 'b']))) (.elems ['a', 'b', 'c'] ['x', 'x']) (fun _ => true) = some (.ok (.elems r)) ∧
    r.length = 3 ∧ Replaced (lift fun a b : Char => a == b) 1 [1, 1] (['x', 'x'][·]?) (['a', 'b', 'c'][·]?) 3 (fun k => r[k]?) := by
  have := under_select_elements (fun a b : Char => a == b) ⟨fun a => by simp, fun a b => by simp; exact Eq.symm, fun a b c => by simp; exact Eq.trans⟩ false false [some 1, some (-2)] ['a', 'b', 'c']
    ['x', 'x'] (by decide) rfl (some (.ok (.elems ['b', 'b']))) (by simp) (by constructor <;> intro h <;> cases h) (fun _ => true)
  refine this.2 ?_
  intro i k p hi hk j hj
  obtain rfl : j = 0 := by omega
  match i, k, hi, hk with
  | 0, 0, _, _ => rfl
  | 0, 1, _, _ => rfl
  | 1, 0, _, _ => rfl
  | 1, 1, _, _ => rfl
  | i + 2, _, hi, _ => cases hi
  | _, k + 2, _, hk => cases hk

/-- Booleans, one per cell. -/
theorem under_select_bits {α} (compat : α → α → Bool) (const fIdx : Bool) (ws : List (Option Int)) (x : List Word) (xn : Nat) (hn : xn < 2^32) (hx : xn ≤ 64 * x.length) (rep : Nat → Word)
    (sel : Option (Out (Res α))) (hsel : sel ≠ none) (hsel2 : sel = some .err ↔ positions xn ws = none) (junk : Nat → Bool) :
    Expected (fun a b : Bool => a == b) 1 (positions xn ws) (bitF rep) (bitL x) (xn * 1) bitL Res.bits (fun r => r.length = x.length)
      (ucw compat const fIdx ws xn 1 sel (.bits x rep) junk) :=
  ucw_spec equiv_beq const fIdx ws xn 1 hn (by decide) sel hsel hsel2 _ junk (acts_bits xn ws.length x.length rep hx) x rfl Res.bits (fun _ => rfl)

example : ucw (fun a b : Char => a == b) true false [some 1, some 5] 3 1 (some .err) (.bits [5#64] (fun _ => 3#64)) (fun _ => true) = some .err :=
  under_select_bits (fun a b : Char => a == b) true false [some 1, some 5] [5#64] 3 (by decide) (by decide) (fun _ => 3#64) (some .err) (by simp) (by constructor <;> intro _ <;> rfl) (fun _ => true)

/-- Cells of `csz` booleans. -/
theorem under_select_bit_cells {α} (compat : α → α → Bool) (const fIdx : Bool) (ws : List (Option Int)) (csz : Nat) (h0 : 0 < csz) (x : List Word) (xn : Nat) (hn : xn < 2^32)
    (hx : xn * csz ≤ 64 * x.length) (rep : Nat → Word) (sel : Option (Out (Res α))) (hsel : sel ≠ none) (hsel2 : sel = some .err ↔ positions xn ws = none) (junk : Nat → Bool) :
    Expected (fun a b : Bool => a == b) csz (positions xn ws) (bitF rep) (bitL x) (xn * csz) bitL Res.bits (fun r => r.length = x.length)
      (ucw compat const fIdx ws xn csz sel (.bitCells csz x rep) junk) :=
  ucw_spec equiv_beq const fIdx ws xn csz hn h0 sel hsel hsel2 _ junk (acts_bitCells xn csz ws.length x.length rep hx) x rfl Res.bits (fun _ => rfl)

/-- Two different cells of two booleans at the same position. -/
example : ucw (fun a b : Char => a == b) false false [some 1, some 1] 3 2 (some (.ok (.bits [0#64]))) (.bitCells 2 [5#64] (fun _ => 0b1001#64)) (fun _ => true) = some .err := by
  have := under_select_bit_cells (fun a b : Char => a == b) false false [some 1, some 1] 2 (by decide) [5#64] 3 (by decide) (by decide) (fun _ => 0b1001#64) (some (.ok (.bits [0#64]))) (by simp)
    (by constructor <;> intro h <;> cases h) (fun _ => true)
  exact this.1 fun h => Bool.noConfusion (h 0 1 1 rfl rfl 0 (by decide))

/-- Cells of `csz` objects. -/
theorem under_select_object_cells {α} (compat : α → α → Bool) (hc : Equiv compat) (const fIdx : Bool) (ws : List (Option Int)) (csz : Nat) (h0 : 0 < csz) (xn : Nat) (hn : xn < 2^32)
    (xs rep : List α) (hx : xs.length = xn * csz) (hrep : rep.length = ws.length * csz) (sel : Option (Out (Res α))) (hsel : sel ≠ none)
    (hsel2 : sel = some .err ↔ positions xn ws = none) (junk : Nat → Bool) :
    Expected (lift compat) csz (positions xn ws) (rep[·]?) (xs[·]?) (xn * csz) (fun (r : List α) k => r[k]?) Res.elems (fun r => r.length = xs.length)
      (ucw compat const fIdx ws xn csz sel (.objCells csz xs rep) junk) :=
  ucw_spec hc.lift const fIdx ws xn csz hn h0 sel hsel hsel2 _ junk (acts_cells compat xn csz ws.length xs.length rep hx hrep (fun _ => rfl)) xs rfl Res.elems (fun _ => rfl)

example : ucw (fun a b : Char => a == b) true false [some 2] 2 2 (some .err) (.objCells 2 ['a', 'b', 'c', 'd'] ['x', 'y']) (fun _ => true) = some .err :=
  under_select_object_cells (fun a b : Char => a == b) ⟨fun a => by simp, fun a b => by simp; exact Eq.symm, fun a b c => by simp; exact Eq.trans⟩ true false [some 2] 2 (by decide) 2 (by decide)
    ['a', 'b', 'c', 'd'] ['x', 'y'] rfl rfl (some .err) (by simp) (by constructor <;> intro _ <;> rfl) (fun _ => true)

/-- Cells of `csz` elements of `width` bytes, when a cell has less than 256 bytes or the indices are doubles. For larger cells
`under_select_wrong_accept` and `under_select_wrong_reject` show that the result is wrong. -/
theorem under_select_cells_partial {α} (compat : α → α → Bool) (hc : Equiv compat) (const fIdx : Bool) (ws : List (Option Int)) (csz width : Nat) (h0 : 0 < csz) (hw0 : 0 < width)
    (hsmall : csz * width < 256 ∨ fIdx = true) (xn : Nat) (hn : xn < 2^32)
    (xs rep : List α) (hx : xs.length = xn * csz) (hrep : rep.length = ws.length * csz) (sel : Option (Out (Res α))) (hsel : sel ≠ none)
    (hsel2 : sel = some .err ↔ positions xn ws = none) (junk : Nat → Bool) :
    Expected (lift compat) csz (positions xn ws) (rep[·]?) (xs[·]?) (xn * csz) (fun (r : List α) k => r[k]?) Res.elems (fun r => r.length = xs.length)
      (ucw compat const fIdx ws xn csz sel (.cells width csz xs rep) junk) := by
  cases fIdx with
  | true =>
    exact ucw_spec hc.lift const true ws xn csz hn h0 sel hsel hsel2 _ junk (acts_cells compat xn csz ws.length xs.length rep hx hrep (fun _ => rfl)) xs rfl Res.elems (fun _ => rfl)
  | false =>
    have hs : csz * width < 256 := hsmall.resolve_right (by simp)
    refine ucw_spec hc.lift const false ws xn csz hn h0 sel hsel hsel2 _ junk (acts_cells compat xn csz ws.length xs.length rep hx hrep (off := fun i => i * (csz * width % 256) / width) ?_) xs rfl
      Res.elems (fun _ => rfl)
    intro i
    rw [Nat.mod_eq_of_lt hs, ← Nat.mul_assoc, Nat.mul_div_cancel _ hw0]

example : ucw (fun a b : Char => a == b) true false [some 2] 2 2 (some .err) (.cells 1 2 ['a', 'b', 'c', 'd'] ['x', 'y']) (fun _ => true) = some .err :=
  under_select_cells_partial (fun a b : Char => a == b) ⟨fun a => by simp, fun a b => by simp; exact Eq.symm, fun a b c => by simp; exact Eq.trans⟩ true false [some 2] 2 1 (by decide) (by decide)
    (.inl (by decide)) 2 (by decide) ['a', 'b', 'c', 'd'] ['x', 'y'] rfl rfl (some .err) (by simp) (by constructor <;> intro _ <;> rfl) (fun _ => true)

/-- Cells of 32 doubles: the number of bytes of a cell has 8 bits and is 0. Two different cells at the same position are accepted. -/
theorem under_select_wrong_accept :
    (∃ r, ucw (fun a b : Nat => a == b) false false [some 0, some 0] 1 32 (some (.ok (.elems []))) (.cells 8 32 (List.replicate 32 0) (List.replicate 32 1 ++ List.replicate 32 2)) (fun _ => true) =
      some (.ok (.elems r))) ∧
    ¬ Consistent (lift fun a b : Nat => a == b) 32 [0, 0] ((List.replicate 32 1 ++ List.replicate 32 2)[·]?) :=
  ⟨⟨List.replicate 32 2, rfl⟩, fun h => Bool.noConfusion (h 0 1 0 rfl rfl 0 (by decide))⟩

/-- Cells of 33 doubles: the same cell twice at the same position is an error. -/
theorem under_select_wrong_reject :
    ucw (fun a b : Nat => a == b) false false [some 0, some 0] 1 33 (some (.ok (.elems []))) (.cells 8 33 (List.replicate 33 0) (1 :: List.replicate 32 0 ++ 1 :: List.replicate 32 0)) (fun _ => true) =
      some .err ∧
    Consistent (lift fun a b : Nat => a == b) 33 [0, 0] ((1 :: List.replicate 32 0 ++ 1 :: List.replicate 32 0)[·]?) := by
  refine ⟨rfl, ?_⟩
  have hall : ∀ j, j < 33 → lift (fun a b : Nat => a == b) ((1 :: List.replicate 32 0 ++ 1 :: List.replicate 32 0)[0 * 33 + j]?) ((1 :: List.replicate 32 0 ++ 1 :: List.replicate 32 0)[1 * 33 + j]?) = true ∧
      lift (fun a b : Nat => a == b) ((1 :: List.replicate 32 0 ++ 1 :: List.replicate 32 0)[1 * 33 + j]?) ((1 :: List.replicate 32 0 ++ 1 :: List.replicate 32 0)[0 * 33 + j]?) = true := by decide
  have hc : Equiv (lift fun a b : Nat => a == b) := Equiv.lift ⟨fun a => by simp, fun a b => by simp; exact Eq.symm, fun a b c => by simp; exact Eq.trans⟩
  intro i k p hi hk j hj
  match i, k, hi, hk with
  | 0, 0, _, _ => exact hc.refl _
  | 0, 1, _, _ => exact (hall j hj).1
  | 1, 0, _, _ => exact (hall j hj).2
  | 1, 1, _, _ => exact hc.refl _
  | i + 2, _, hi, _ => cases hi
  | _, k + 2, _, hk => cases hk

/-- `(2‿0⥊0)⌾(5‿6⊸⊏) 3‿0⥊0` ends the program: Select does not report the bad indices when the cells are empty. -/
theorem under_select_empty_cells_fatal :
    ucw (fun a b : Char => a == b) true false [some 5, some 6] 3 0
      (selectC2 id false true false (.ints .i8 [5, 6]) (.cells 8 0 ([[], [], []] : List (List Char)).flatten) 3 (fun _ => 7#64) (fun _ => 'x')) (.cells 1 0 [] []) (fun _ => true) = none := rfl

/-! ## A constant for each -/

theorem cellLoop_const {α} (c : α) {n : Nat} (hn : n < 2^32) : ∀ (ws : List (Option Int)) (i : Nat) (m : List α), m.length = n →
    match positions n ws with
    | none => cellLoop (fun m _ p => wr m p c) n ws i m = some .err
    | some ps => ∃ r, cellLoop (fun m _ p => wr m p c) n ws i m = some (.ok r) ∧ r.length = n ∧ ∀ k, k < n → r[k]? = if k ∈ ps then some c else m[k]?
  | [], i, m, hm => ⟨m, rfl, hm, fun k hk => by rw [if_neg (by simp)]⟩
  | w :: ws, i, m, hm => by
    rw [cellLoop]
    have hs := index_spec w hn
    rcases hp : w.bind (position n) with _ | p
    · rw [positions_none_of hp List.mem_cons_self, hs, hp]
    · rw [hs, hp]
      dsimp only
      rcases w with _ | v
      · cases hp
      have hp : position n v = some p := hp
      have hlt := position_lt hp
      rw [wr_some (by omega), Option.bind_some]
      have ih := cellLoop_const c hn ws (i + 1) (m.set p c) (by rw [List.length_set]; exact hm)
      have hpos : positions n (some v :: ws) = (positions n ws).map (p :: ·) := by
        show (position n v).bind _ = _
        rw [hp]
        rfl
      rw [hpos]
      rcases hq : positions n ws with _ | ps
      · rw [hq] at ih
        exact ih
      · rw [hq] at ih
        obtain ⟨r, e, hl, hr⟩ := ih
        refine ⟨r, e, hl, fun k hk => ?_⟩
        rw [hr k hk]
        by_cases h1 : k ∈ ps
        · rw [if_pos h1, if_pos (List.mem_cons_of_mem _ h1)]
        · rw [if_neg h1]
          by_cases h2 : k = p
          · rw [h2, List.getElem?_set_self (by omega), if_pos List.mem_cons_self]
          · rw [List.getElem?_set_ne (Ne.symm h2), if_neg]
            intro h3
            rcases List.mem_cons.1 h3 with h4 | h4
            · exact h2 h4
            · exact h1 h4

/-- `c˙¨⌾(ws⊸⊏) xs` writes `c` at the selected positions of a list and keeps all other elements. -/
theorem under_select_each {α} (c : α) (ws : List (Option Int)) (xs : List α) (hn : xs.length < 2^32) (sel : Option (Out (Res α))) (hsel : sel = some .err ↔ positions xs.length ws = none) :
    match positions xs.length ws with
    | none => ucwEach c ws xs sel = some .err
    | some ps => ∃ r, ucwEach c ws xs sel = some (.ok (.elems r)) ∧ r.length = xs.length ∧ ∀ k, k < xs.length → r[k]? = if k ∈ ps then some c else xs[k]? := by
  have := cellLoop_const c hn ws 0 xs rfl
  unfold ucwEach
  rcases hp : positions xs.length ws with _ | ps
  · rw [hp] at this
    have this : cellLoop (fun m _ p => wr m p c) xs.length ws 0 xs = some .err := this
    dsimp only
    rw [this, hsel.2 hp]
  · rw [hp] at this
    obtain ⟨r, e, hl, hr⟩ := this
    dsimp only
    exact ⟨r, by rw [e], hl, hr⟩

example : ∃ r, ucwEach 'x' [some 1, some (-1)] ['a', 'b', 'c'] (some (.ok (.elems ['b', 'c']))) = some (.ok (.elems r)) ∧ r.length = 3 ∧
    ∀ k, k < 3 → r[k]? = if k ∈ [1, 2] then some 'x' else ['a', 'b', 'c'][k]? :=
  under_select_each 'x' [some 1, some (-1)] ['a', 'b', 'c'] (by decide) (some (.ok (.elems ['b', 'c']))) (by constructor <;> intro h <;> cases h)

theorem cellLoop_constBits (c : Bool) {n : Nat} (hn : n < 2^32) : ∀ (ws : List (Option Int)) (i : Nat) (m : List Word), n ≤ 64 * m.length →
    match positions n ws with
    | none => cellLoop (fun m _ p => bitSet (fun _ => if c then ~~~0#64 else 0#64) m p 0) n ws i m = some .err
    | some ps => ∃ r, cellLoop (fun m _ p => bitSet (fun _ => if c then ~~~0#64 else 0#64) m p 0) n ws i m = some (.ok r) ∧ ∀ k, bitL r k = if k ∈ ps then c else bitL m k
  | [], i, m, hm => ⟨m, rfl, fun k => by rw [if_neg (by simp)]⟩
  | w :: ws, i, m, hm => by
    rw [cellLoop]
    have hs := index_spec w hn
    rcases hp : w.bind (position n) with _ | p
    · rw [positions_none_of hp List.mem_cons_self, hs, hp]
    · rw [hs, hp]
      dsimp only
      rcases w with _ | v
      · cases hp
      have hp : position n v = some p := hp
      have hlt := position_lt hp
      obtain ⟨m', e, hl, hk⟩ := bitSet_get (fun _ => if c then ~~~0#64 else 0#64) m p 0 (by omega)
      have hbit : bitF (fun _ => if c then ~~~0#64 else 0#64) 0 = c := by cases c <;> rfl
      rw [e, Option.bind_some]
      have ih := cellLoop_constBits c hn ws (i + 1) m' (by omega)
      have hpos : positions n (some v :: ws) = (positions n ws).map (p :: ·) := by
        show (position n v).bind _ = _
        rw [hp]
        rfl
      rw [hpos]
      rcases hq : positions n ws with _ | ps
      · rw [hq] at ih
        exact ih
      · rw [hq] at ih
        obtain ⟨r, e, hr⟩ := ih
        refine ⟨r, e, fun k => ?_⟩
        rw [hr k, hk, hbit]
        by_cases h1 : k ∈ ps
        · rw [if_pos h1, if_pos (List.mem_cons_of_mem _ h1)]
        · rw [if_neg h1]
          by_cases h2 : k = p
          · rw [if_pos h2, if_pos (by rw [h2]; exact List.mem_cons_self)]
          · rw [if_neg h2, if_neg]
            intro h3
            rcases List.mem_cons.1 h3 with h4 | h4
            · exact h2 h4
            · exact h1 h4

/-- The same for booleans. -/
theorem under_select_each_bits {α} (c : Bool) (ws : List (Option Int)) (x : List Word) (n : Nat) (hn : n < 2^32) (hx : n ≤ 64 * x.length) (sel : Option (Out (Res α)))
    (hsel : sel = some .err ↔ positions n ws = none) :
    match positions n ws with
    | none => ucwEachBits c ws x n sel = some .err
    | some ps => ∃ r, ucwEachBits c ws x n sel = some (.ok (.bits r)) ∧ ∀ k, bitL r k = if k ∈ ps then c else bitL x k := by
  have := cellLoop_constBits c hn ws 0 x hx
  unfold ucwEachBits
  rcases hp : positions n ws with _ | ps
  · rw [hp] at this
    have this : cellLoop (fun m _ p => bitSet (fun _ => if c then ~~~0#64 else 0#64) m p 0) n ws 0 x = some .err := this
    dsimp only
    rw [this, hsel.2 hp]
  · rw [hp] at this
    obtain ⟨r, e, hr⟩ := this
    dsimp only
    exact ⟨r, by rw [e], hr⟩

example : ∃ r, ucwEachBits (α := Nat) true [some 1, some (-1)] [1#64] 5 (some (.ok (.bits []))) = some (.ok (.bits r)) ∧ ∀ k, bitL r k = if k ∈ [1, 4] then true else bitL [1#64] k :=
  under_select_each_bits true [some 1, some (-1)] [1#64] 5 (by decide) (by decide) (some (.ok (.bits []))) (by constructor <;> intro h <;> cases h)

end Verif.Under
